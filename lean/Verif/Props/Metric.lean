import Verif.Proofs.Float
/-
Property theorems C28 and C57 (pkg/metric).
-/
namespace Verif.Props
open Verif Spec

section
variable {oob : Int} {α : ℝ} (h0 : 0 < α) (h1 : α ≤ 1) {a b o : Nat} (ha : 1 ≤ a) (hb : 1 ≤ b)
  (ha' : a < 2 ^ 31) (hb' : b < 2 ^ 31) (hoa : o ≤ a) (hob : o ≤ b)

include h0 h1 ha hb ha' hb' hoa hob in
/-- **C28** Jaccard, exact arithmetic: the score is |A ∩ B| / |A ∪ B|; it is at least `α` iff the overlap reaches the
threshold; and then the cardinality of the document is within the bounds. Hypothesis `hr`: the upper bound fits in
int64 (see `C28_tiny_alpha_wrong`). -/
theorem C28_jaccard_partial (hr : (a : ℝ) / α < 2 ^ 63) :
    let M := jaccardMetric (realOps oob)
    metricScore (realOps oob) M o a b = jaccardSim a b o ∧
    (α ≤ jaccardSim a b o ↔ M.threshold α a b ≤ o) ∧
    (α ≤ jaccardSim a b o → M.minY α a ≤ b ∧ (b : Int) ≤ M.maxY α a) := by
  refine ⟨score_jaccard, ?_, bounds_jaccard h0 h1 ha hb ha' hoa hob hr⟩
  rw [thr_jaccard h0 h1 ha' hb']
  exact sim_jaccard_iff h0 ha hob

include h0 h1 ha hb ha' hb' hoa hob in
/-- **C28** Dice. -/
theorem C28_dice_partial (hr : (2 - α) / α * (a : ℝ) < 2 ^ 63) :
    let M := diceMetric (realOps oob)
    metricScore (realOps oob) M o a b = diceSim a b o ∧
    (α ≤ diceSim a b o ↔ M.threshold α a b ≤ o) ∧
    (α ≤ diceSim a b o → M.minY α a ≤ b ∧ (b : Int) ≤ M.maxY α a) := by
  refine ⟨score_dice, ?_, bounds_dice h0 h1 ha hb ha' hoa hob hr⟩
  rw [thr_dice h0 h1 ha' hb']
  exact sim_dice_iff ha

include h0 h1 ha hb ha' hb' hoa hob in
/-- **C28** Cosine. -/
theorem C28_cosine_partial (hr : (a : ℝ) / (α * α) < 2 ^ 63) :
    let M := cosineMetric (realOps oob)
    metricScore (realOps oob) M o a b = cosineSim a b o ∧
    (α ≤ cosineSim a b o ↔ M.threshold α a b ≤ o) ∧
    (α ≤ cosineSim a b o → M.minY α a ≤ b ∧ (b : Int) ≤ M.maxY α a) := by
  refine ⟨score_cosine, ?_, bounds_cosine h0 h1 ha hb ha' hoa hob hr⟩
  rw [thr_cosine h0 h1 ha' hb']
  exact sim_cosine_iff ha hb

include h0 h1 ha hb ha' in
/-- **C28** Overlap: only for documents with at most 32767 terms (see `C28_overlap_misses_large`). -/
theorem C28_overlap_partial (hb2 : b ≤ 32767) :
    let M := overlapMetric (realOps oob)
    metricScore (realOps oob) M o a b = overlapSim a b o ∧
    (α ≤ overlapSim a b o ↔ M.threshold α a b ≤ o) ∧
    (α ≤ overlapSim a b o → M.minY α a ≤ b ∧ (b : Int) ≤ M.maxY α a) := by
  refine ⟨score_overlap, ?_, fun _ => ⟨?_, ?_⟩⟩
  · rw [thr_overlap h0 h1 ha']
    exact sim_overlap_iff ha hb
  · show (1 : Int) ≤ b; omega
  · show (b : Int) ≤ 32767; omega

include hoa hob in
/-- **C28** Exact: a document passes the bounds and the threshold iff it has exactly the terms of the query (equal
cardinalities, everything shared); the score is 1. -/
theorem C28_exact :
    let M := exactMetric (realOps oob)
    metricScore (realOps oob) M o a b = 1 ∧
    ((M.minY α a ≤ b ∧ (b : Int) ≤ M.maxY α a ∧ M.threshold α a b ≤ o) ↔ a = b ∧ o = a ∧ o = b) := by
  refine ⟨score_exact, ?_⟩
  simp only [exactMetric]
  omega

end

/-- Non-vacuity: a document with the 4 terms, sharing 3 with a query of 5 terms, at similarity 1/2. -/
example : (1 / 2 : ℝ) ≤ jaccardSim 5 4 3 ∧ (jaccardMetric (realOps 0)).threshold (1 / 2) 5 4 ≤ 3 := by
  have h : (1 / 2 : ℝ) ≤ jaccardSim 5 4 3 := by norm_num [jaccardSim]
  refine ⟨h, ?_⟩
  have := (C28_jaccard_partial (oob := 0) (α := 1 / 2) (by norm_num) (by norm_num) (a := 5) (b := 4) (o := 3)
    (by norm_num) (by norm_num) (by norm_num) (by norm_num) (by norm_num) (by norm_num) (by norm_num)).2.1.1 h
  exact_mod_cast this

/-- **C28** in full is false for Overlap: a document with 40000 terms that contains the whole query has similarity 1
but lies beyond the upper bound. -/
theorem C28_overlap_misses_large (oob : Int) : overlapSim 3 40000 3 = 1 ∧
    (overlapMetric (realOps oob)).maxY 1 3 < 40000 := by
  constructor
  · norm_num [overlapSim]
  · show (32767 : Int) < 40000; norm_num

/-- **C28** in full is false for very small similarities: on amd64 (`oob = -2^63`) the upper bound of a query with 3
terms at similarity 10^-20 is negative. -/
theorem C28_tiny_alpha_wrong : (jaccardMetric (realOps (-2 ^ 63))).maxY (1 / 10 ^ 20) 3 < 0 ∧
    (1 / 10 ^ 20 : ℝ) ≤ jaccardSim 3 3 3 := by
  constructor
  · have : (jaccardMetric (realOps (-2 ^ 63))).maxY (1 / 10 ^ 20) 3 = toInt64 (-2 ^ 63) ⌊(3 * 10 ^ 20 : ℝ)⌋ := by
      simp [jaccardMetric, realOps]
    rw [this]
    have : ⌊(3 * 10 ^ 20 : ℝ)⌋ = 3 * 10 ^ 20 := by
      rw [Int.floor_eq_iff]; norm_num
    rw [this]
    norm_num [toInt64]
  · norm_num [jaccardSim]

/-! ### Rounding -/

/-- The document and the query share 9 terms, the query has 10 and the document 24: similarity 9/25 = 0.36. -/
theorem C57_jaccard_float_loses :
    let F := f64Ops (-2 ^ 63)
    let α := rnd53 (36 / 100)
    α ≤ (9 : ℚ) / (10 + 24 - 9) ∧ α ≤ metricScore F (jaccardMetric F) 9 10 24 ∧
      ¬ (jaccardMetric F).threshold α 10 24 ≤ 9 := by
  decide +kernel

/-- Dice, similarity 0.85: the float64 upper bound excludes a document with exactly that similarity. -/
theorem C57_dice_float_loses :
    let F := f64Ops (-2 ^ 63)
    let α := rnd53 (85 / 100)
    α ≤ (2 * 17 : ℚ) / (17 + 23) ∧ α ≤ metricScore F (diceMetric F) 17 17 23 ∧
      ¬ 23 ≤ (diceMetric F).maxY α 17 := by
  decide +kernel

section
variable {oob : Int} {α : ℚ} (h0 : 0 < α) (h1 : α ≤ 1) {a b o : Nat} (ha : 1 ≤ a) (hb : 1 ≤ b)
  (ha' : a < 2 ^ 31) (hb' : b < 2 ^ 31) (hoa : o ≤ a) (hob : o ≤ b)

include h0 ha ha' hoa hob in
/-- **C57** (partial: with a relative margin of 2^-48; without it false, `C57_jaccard_float_loses`) Computed in
float64, a document whose similarity exceeds `α` by the margin passes the threshold and both bounds. -/
theorem C57_jaccard_margin_partial (hr : (a : ℚ) / α ≤ 2 ^ 62)
    (h : (α : ℝ) * (1 + 1 / 2 ^ 48) ≤ jaccardSim a b o) :
    let M := jaccardMetric (f64Ops oob)
    M.threshold α a b ≤ o ∧ M.minY α a ≤ b ∧ (b : Int) ≤ M.maxY α a := by
  refine f64_jaccard h0 ha' hoa hob hr ?_
  have ha2 : (1 : ℝ) ≤ a := by exact_mod_cast ha
  have hob2 : (o : ℝ) ≤ b := by exact_mod_cast hob
  rw [jaccardSim, le_div_iff₀ (by linarith)] at h
  unfold margin
  rw [← Rat.cast_le (K := ℝ)]
  push_cast
  exact h

include h0 h1 ha ha' hb' hoa hob in
/-- **C57** (partial) Dice. -/
theorem C57_dice_margin_partial (hr : (2 - α) / α * (a : ℚ) ≤ 2 ^ 62)
    (h : (α : ℝ) * (1 + 1 / 2 ^ 48) ≤ diceSim a b o) :
    let M := diceMetric (f64Ops oob)
    M.threshold α a b ≤ o ∧ M.minY α a ≤ b ∧ (b : Int) ≤ M.maxY α a := by
  refine f64_dice h0 h1 ha' hb' hoa hob hr ?_
  have ha2 : (1 : ℝ) ≤ a := by exact_mod_cast ha
  have hb0 : (0 : ℝ) ≤ b := by positivity
  rw [diceSim, le_div_iff₀ (by linarith)] at h
  unfold margin
  rw [← Rat.cast_le (K := ℝ)]
  push_cast
  exact h

include h0 ha hb ha' hb' hoa hob in
/-- **C57** (partial) Cosine. -/
theorem C57_cosine_margin_partial (hr : (a : ℚ) / (α * α) ≤ 2 ^ 62)
    (h : (α : ℝ) * (1 + 1 / 2 ^ 48) ≤ cosineSim a b o) :
    let M := cosineMetric (f64Ops oob)
    M.threshold α a b ≤ o ∧ M.minY α a ≤ b ∧ (b : Int) ≤ M.maxY α a := by
  refine f64_cosine h0 ha hb ha' hb' hoa hob hr ?_
  have ha2 : (1 : ℝ) ≤ a := by exact_mod_cast ha
  have hb2 : (1 : ℝ) ≤ b := by exact_mod_cast hb
  have h0' : (0 : ℝ) < α := by exact_mod_cast h0
  have hs : 0 < Real.sqrt ((a : ℝ) * b) := Real.sqrt_pos.2 (by nlinarith)
  rw [cosineSim, le_div_iff₀ hs] at h
  have h2 : ((α : ℝ) * (1 + 1 / 2 ^ 48)) ^ 2 * ((a : ℝ) * b) ≤ (o : ℝ) ^ 2 := by
    have h3 := pow_le_pow_left₀ (by positivity) h 2
    rw [mul_pow, Real.sq_sqrt (by positivity)] at h3
    exact h3
  unfold margin
  rw [← Rat.cast_le (K := ℝ)]
  push_cast
  exact h2

include h0 ha ha' hb' hoa hob in
/-- **C57** (partial) Overlap. -/
theorem C57_overlap_margin_partial (hb3 : 1 ≤ b ∧ b ≤ 32767)
    (h : (α : ℝ) * (1 + 1 / 2 ^ 48) ≤ overlapSim a b o) :
    let M := overlapMetric (f64Ops oob)
    M.threshold α a b ≤ o ∧ M.minY α a ≤ b ∧ (b : Int) ≤ M.maxY α a := by
  refine f64_overlap h0 ha' hb' hoa hob hb3 ?_
  have ha2 : (1 : ℝ) ≤ a := by exact_mod_cast ha
  have hb2 : (1 : ℝ) ≤ b := by exact_mod_cast hb3.1
  rw [overlapSim, le_div_iff₀ (lt_min (by linarith) (by linarith))] at h
  unfold margin
  rw [← Rat.cast_le (K := ℝ)]
  push_cast
  exact h

end

/-- Non-vacuity: 3 shared terms of 5 and 4, at similarity 0.4: the float64 threshold is met. -/
example : (jaccardMetric (f64Ops 0)).threshold (rnd53 (4 / 10)) 5 4 ≤ 3 := by
  have e : rnd53 (4 / 10) = 3602879701896397 / 9007199254740992 := by decide +kernel
  have := (C57_jaccard_margin_partial (oob := 0) (α := rnd53 (4 / 10)) (by rw [e]; norm_num) (a := 5) (b := 4) (o := 3)
    (by norm_num) (by norm_num) (by norm_num) (by norm_num) (by rw [e]; norm_num)
    (by rw [e]; norm_num [jaccardSim])).1
  exact_mod_cast this

end Verif.Props
