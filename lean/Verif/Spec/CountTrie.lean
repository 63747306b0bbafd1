/- What C41 and C42 refer to. -/
namespace Verif.Spec

/-- The sum of the counts put for a path in a history of (path, count) pairs. -/
def totalCount {α : Type} [DecidableEq α] (history : List (List α × Nat)) (path : List α) : Nat :=
  ((history.filter fun pc => decide (pc.1 = path)).map Prod.snd).sum

/-- The number of positions at which `p` occurs in `s`. -/
def gramOccurrences {α : Type} [DecidableEq α] (p : List α) : List α → Nat
  | [] => if p = [] then 1 else 0
  | x :: s => (if p <+: x :: s then 1 else 0) + gramOccurrences p s

end Verif.Spec
