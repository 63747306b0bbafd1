import Verif.Model.Store
import Verif.Spec.Iterator
/-
Model of pkg/merger/list_iterator.go: the `ListIterator` interface and `SliceIterator`.
-/
namespace Verif

/-- The interface `ListIterator` as functions on the iterator state —
pkg/merger/list_iterator.go:14-26. -/
class ListIter (σ : Type) where
  get : σ → Except Err Nat
  hasNext : σ → Bool
  next : σ → Except Err Nat × σ
  lowerBound : σ → Nat → Except Err Nat × σ
  len : σ → Nat

/-- What a caller sees of a value/error pair: the value, the sentinel error
`ErrIteratorIsNotDereferencable` (= `none`), or some other failure. -/
def obsOf : Except Err Nat → Spec.ItObs
  | .ok v => .elem (some v)
  | .error .notDereferencable => .elem none
  | .error _ => .failed

/-- One operation on an iterator, with the observation of the caller. -/
def ListIter.step {σ} [ListIter σ] (s : σ) : Spec.ItOp → Spec.ItObs × σ
  | .get => (obsOf (ListIter.get s), s)
  | .hasNext => (.bool (ListIter.hasNext s), s)
  | .next => (obsOf (ListIter.next s).1, (ListIter.next s).2)
  | .lowerBound bnd => (obsOf (ListIter.lowerBound s bnd).1, (ListIter.lowerBound s bnd).2)
  | .len => (.nat (ListIter.len s), s)

/-- All observations of a history. -/
def ListIter.run {σ} [ListIter σ] (s : σ) : List Spec.ItOp → List Spec.ItObs
  | [] => []
  | op :: ops => (ListIter.step s op).1 :: ListIter.run (ListIter.step s op).2 ops

/-- Loop of `sort.Search` (Go standard library): smallest index in `[i, j)` with `f` true, by
bisection. -/
def sortSearchLoop (f : Nat → Bool) (i j : Nat) : Nat :=
  if h : i < j then
    let m := (i + j) / 2
    if f m then sortSearchLoop f i m else sortSearchLoop f (m + 1) j
  else i
termination_by j - i
decreasing_by all_goals omega

/-- `sort.Search(n, f)`. -/
def sortSearch (n : Nat) (f : Nat → Bool) : Nat := sortSearchLoop f 0 n

/-- `type SliceIterator struct { slice []uint32; index int }` —
pkg/merger/list_iterator.go:29-32. -/
structure SliceIter where
  slice : List Nat
  index : Nat
  deriving DecidableEq, Repr

namespace SliceIter

/-- Go indexing `slice[i]`. -/
def at' (l : List Nat) (i : Nat) : Except Err Nat :=
  match l[i]? with
  | some v => .ok v
  | none => .error .panicIndex

/-- `NewSliceIterator` — pkg/merger/list_iterator.go:35-40. -/
def new (l : List Nat) : SliceIter := ⟨l, 0⟩

/-- `IsValid` — pkg/merger/list_iterator.go:52-54. -/
def isValid (s : SliceIter) : Bool := s.index < s.slice.length

/-- `Get` — pkg/merger/list_iterator.go:43-49. -/
def get (s : SliceIter) : Except Err Nat :=
  if !s.isValid then .error .notDereferencable else at' s.slice s.index

/-- `HasNext` — pkg/merger/list_iterator.go:57-59. -/
def hasNext (s : SliceIter) : Bool := s.index + 1 < s.slice.length

/-- `Next` — pkg/merger/list_iterator.go:62-70. -/
def next (s : SliceIter) : Except Err Nat × SliceIter :=
  if !s.hasNext then (.error .notDereferencable, s)
  else (at' s.slice (s.index + 1), { s with index := s.index + 1 })

/-- `LowerBound` — pkg/merger/list_iterator.go:74-90. (`sort.Search` never returns a negative
number, so the test `j < 0` is omitted.) -/
def lowerBound (s : SliceIter) (bnd : Nat) : Except Err Nat × SliceIter :=
  if !s.isValid then (.error .notDereferencable, s)
  else
    let sl := s.slice.drop s.index
    let j := sortSearch sl.length (fun i => match sl[i]? with | some v => bnd ≤ v | none => false)
    if sl.length ≤ j then (.error .notDereferencable, { s with index := s.slice.length })
    else (at' sl j, { s with index := s.index + j })

/-- `Len` — pkg/merger/list_iterator.go:93-95. -/
def len (s : SliceIter) : Nat := s.slice.length

instance : ListIter SliceIter := ⟨get, hasNext, next, lowerBound, len⟩

end SliceIter
end Verif
