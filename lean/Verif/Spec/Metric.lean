import Mathlib.Analysis.SpecialFunctions.Pow.Real
import Mathlib.Analysis.SpecialFunctions.Sqrt
/-
Independent specification of set similarities: `a`, `b` = cardinalities of the two sets, `o` = cardinality of the
intersection. Exact real numbers. Does not import the model.
-/
namespace Verif.Spec

/-- |A ∩ B| / |A ∪ B|. -/
noncomputable def jaccardSim (a b o : Nat) : ℝ := (o : ℝ) / ((a : ℝ) + b - o)

/-- 2 |A ∩ B| / (|A| + |B|). -/
noncomputable def diceSim (a b o : Nat) : ℝ := 2 * (o : ℝ) / ((a : ℝ) + b)

/-- |A ∩ B| / √(|A| |B|). -/
noncomputable def cosineSim (a b o : Nat) : ℝ := (o : ℝ) / Real.sqrt ((a : ℝ) * b)

/-- |A ∩ B| / min(|A|, |B|). -/
noncomputable def overlapSim (a b o : Nat) : ℝ := (o : ℝ) / min (a : ℝ) (b : ℝ)

end Verif.Spec
