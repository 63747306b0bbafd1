import Mathlib.Order.Defs.LinearOrder
import Mathlib.Data.List.Sort
/-
Independent specification of "the k best results". Does not import the model.
-/
namespace Verif.Spec

/-- A result: document id and score. -/
structure Candidate (S : Type) where
  key : Nat
  score : S
  deriving DecidableEq, Repr

variable {S : Type} [LinearOrder S]

/-- `a` is at least as good as `b`: higher score or, on equal scores, smaller document id. -/
def Candidate.betterEq (a b : Candidate S) : Bool :=
  decide (b.score < a.score) || (decide (a.score = b.score) && decide (a.key ≤ b.key))

/-- The `K` best of `l`, best first: sort from best to worst and take the first `K`. -/
def best (K : Nat) (l : List (Candidate S)) : List (Candidate S) := (l.mergeSort Candidate.betterEq).take K

end Verif.Spec
