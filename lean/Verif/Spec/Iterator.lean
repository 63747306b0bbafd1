/-
Independent specification of a posting-list iterator: the list of remaining elements (the first one
is the current element) and the length of the whole list. Does not import the model.
-/
namespace Verif.Spec

/-- State of the abstract iterator. -/
structure Iter where
  rem : List Nat
  total : Nat
  deriving DecidableEq, Repr

namespace Iter

/-- An iterator at the beginning of a list. -/
def start (l : List Nat) : Iter := ⟨l, l.length⟩

/-- Current element (`none` = not dereferencable). -/
def get (s : Iter) : Option Nat := s.rem.head?

/-- Is there an element after the current one? -/
def hasNext (s : Iter) : Bool := 2 ≤ s.rem.length

/-- Move to the following element; at the last element nothing moves. -/
def next (s : Iter) : Option Nat × Iter :=
  match s.rem with
  | _ :: y :: ys => (some y, ⟨y :: ys, s.total⟩)
  | _ => (none, s)

/-- Drop all leading elements smaller than `bnd`. -/
def lowerBound (s : Iter) (bnd : Nat) : Option Nat × Iter :=
  let r := s.rem.dropWhile (· < bnd)
  (r.head?, ⟨r, s.total⟩)

end Iter

/-- Operations of an iterator. -/
inductive ItOp where
  | get | hasNext | next | lowerBound (bnd : Nat) | len

/-- What a caller observes. -/
inductive ItObs where
  | elem (v : Option Nat)
  | bool (b : Bool)
  | nat (n : Nat)
  | failed
  deriving DecidableEq, Repr

/-- One abstract operation. -/
def Iter.step (s : Iter) : ItOp → ItObs × Iter
  | .get => (.elem s.get, s)
  | .hasNext => (.bool s.hasNext, s)
  | .next => (.elem s.next.1, s.next.2)
  | .lowerBound bnd => (.elem (s.lowerBound bnd).1, (s.lowerBound bnd).2)
  | .len => (.nat s.total, s)

/-- All observations of a history of operations. -/
def Iter.run (s : Iter) : List ItOp → List ItObs
  | [] => []
  | op :: ops => (s.step op).1 :: Iter.run (s.step op).2 ops

end Verif.Spec
