/-
Independent specification of the T-occurrence problem and of the collector protocol.
Does not import the model.
-/
namespace Verif.Spec

/-- In how many of the lists does `p` occur? -/
def occurrences (ls : List (List Nat)) (p : Nat) : Nat := (ls.filter (fun l => p ∈ l)).length

/-- `out` is the answer to the T-occurrence problem: positions strictly ascending, and exactly the
positions that occur in at least `T` (and at least one) of the lists, each with the exact number of lists. -/
structure IsTOcc (ls : List (List Nat)) (T : Nat) (out : List (Nat × Nat)) : Prop where
  ascending : out.Pairwise (fun a b => a.1 < b.1)
  exact : ∀ p c, (p, c) ∈ out ↔ c = occurrences ls p ∧ T ≤ c ∧ 0 < c

/-- What a collector answers to one candidate: go on, stop (`ErrCollectionTerminated`), or an error. -/
inductive CollectRes (ε : Type) where
  | ok | terminated | err (e : ε)

/-- The collector protocol: candidates are delivered one after the other until the collector stops
(then the merge succeeds) or fails (then the merge fails with that error). -/
def feed {κ α ε : Type} (collect : κ → α → κ × CollectRes ε) : κ → List α → κ × Option ε
  | k, [] => (k, none)
  | k, x :: xs =>
    match collect k x with
    | (k', .ok) => feed collect k' xs
    | (k', .terminated) => (k', none)
    | (k', .err e) => (k', some e)

end Verif.Spec
