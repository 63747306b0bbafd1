import Verif.Model.Metric
import Verif.Spec.Metric
import Mathlib.Tactic.Linarith
import Mathlib.Tactic.FieldSimp
import Mathlib.Tactic.Positivity
/- Lemmas about the metrics over the reals (pkg/metric). -/
namespace Verif
open Spec

theorem toInt64_of_range {oob z : Int} (h1 : -2 ^ 63 ≤ z) (h2 : z < 2 ^ 63) : toInt64 oob z = z := by
  rw [toInt64, if_pos ⟨h1, h2⟩]

theorem ceil_range {x : ℝ} (h0 : 0 ≤ x) (h1 : x < 2 ^ 62) : -2 ^ 63 ≤ ⌈x⌉ ∧ ⌈x⌉ < 2 ^ 63 := by
  constructor
  · exact le_trans (by norm_num) (Int.ceil_nonneg h0)
  · have : ⌈x⌉ ≤ 2 ^ 62 := Int.ceil_le.2 (by norm_num at h1 ⊢; exact h1.le)
    exact lt_of_le_of_lt this (by norm_num)

theorem floor_range {x : ℝ} (h0 : 0 ≤ x) (h1 : x < 2 ^ 63) : -2 ^ 63 ≤ ⌊x⌋ ∧ ⌊x⌋ < 2 ^ 63 := by
  constructor
  · exact le_trans (by norm_num) (Int.floor_nonneg.2 h0)
  · exact Int.floor_lt.2 (by norm_num at h1 ⊢; exact h1)

theorem ceilInt_eq {oob : Int} {x : ℝ} (h0 : 0 ≤ x) (h1 : x < 2 ^ 62) : (realOps oob).ceilInt x = ⌈x⌉ :=
  toInt64_of_range (ceil_range h0 h1).1 (ceil_range h0 h1).2

theorem floorInt_eq {oob : Int} {x : ℝ} (h0 : 0 ≤ x) (h1 : x < 2 ^ 63) : (realOps oob).floorInt x = ⌊x⌋ :=
  toInt64_of_range (floor_range h0 h1).1 (floor_range h0 h1).2

variable {oob : Int} {α : ℝ} {a b o : Nat}

/-! ### Scores -/

theorem score_jaccard : metricScore (realOps oob) (jaccardMetric (realOps oob)) o a b = jaccardSim a b o := by
  simp [metricScore, jaccardMetric, realOps, jaccardSim]

theorem score_dice : metricScore (realOps oob) (diceMetric (realOps oob)) o a b = diceSim a b o := by
  simp [metricScore, diceMetric, realOps, diceSim]

theorem score_cosine : metricScore (realOps oob) (cosineMetric (realOps oob)) o a b = cosineSim a b o := by
  simp [metricScore, cosineMetric, realOps, cosineSim]

theorem score_overlap : metricScore (realOps oob) (overlapMetric (realOps oob)) o a b = overlapSim a b o := by
  simp [metricScore, overlapMetric, realOps, overlapSim]

theorem score_exact : metricScore (realOps oob) (exactMetric (realOps oob)) o a b = 1 := by
  simp [metricScore, exactMetric, realOps]

/-! ### Thresholds -/

section
variable (h0 : 0 < α) (h1 : α ≤ 1) (ha : 1 ≤ a) (hb : 1 ≤ b) (ha' : a < 2 ^ 31) (hb' : b < 2 ^ 31)
  (hoa : o ≤ a) (hob : o ≤ b)

include h0 h1 ha' hb' in
theorem thr_jaccard : (jaccardMetric (realOps oob)).threshold α a b = ⌈α * ((a : ℝ) + b) / (1 + α)⌉ := by
  have : (jaccardMetric (realOps oob)).threshold α a b
      = (realOps oob).ceilInt (α * ((a : ℝ) + b) / (1 + α)) := by simp [jaccardMetric, realOps]
  rw [this]
  have ha2 : (a : ℝ) < 2 ^ 31 := by exact_mod_cast ha'
  have hb2 : (b : ℝ) < 2 ^ 31 := by exact_mod_cast hb'
  have h3 : α * ((a : ℝ) + b) / (1 + α) ≤ a + b := by
    rw [div_le_iff₀ (by linarith)]
    have : (0 : ℝ) ≤ a + b := by positivity
    nlinarith
  exact ceilInt_eq (by positivity) (lt_of_le_of_lt h3 (by linarith [show (2 : ℝ) ^ 31 + 2 ^ 31 ≤ 2 ^ 62 by norm_num]))

include h0 h1 ha' hb' in
theorem thr_dice : (diceMetric (realOps oob)).threshold α a b = ⌈1 / 2 * α * ((a : ℝ) + b)⌉ := by
  have : (diceMetric (realOps oob)).threshold α a b
      = (realOps oob).ceilInt (1 / 2 * α * ((a : ℝ) + b)) := by simp [diceMetric, realOps]
  rw [this]
  have ha2 : (a : ℝ) < 2 ^ 31 := by exact_mod_cast ha'
  have hb2 : (b : ℝ) < 2 ^ 31 := by exact_mod_cast hb'
  have h3 : 1 / 2 * α * ((a : ℝ) + b) ≤ a + b := by
    have : (0 : ℝ) ≤ a + b := by positivity
    nlinarith
  exact ceilInt_eq (by positivity) (lt_of_le_of_lt h3 (by linarith [show (2 : ℝ) ^ 31 + 2 ^ 31 ≤ 2 ^ 62 by norm_num]))

include h0 h1 ha' hb' in
theorem thr_cosine : (cosineMetric (realOps oob)).threshold α a b = ⌈α * Real.sqrt ((a : ℝ) * b)⌉ := by
  have : (cosineMetric (realOps oob)).threshold α a b
      = (realOps oob).ceilInt (α * Real.sqrt ((a : ℝ) * b)) := by simp [cosineMetric, realOps]
  rw [this]
  have ha2 : (a : ℝ) < 2 ^ 31 := by exact_mod_cast ha'
  have hb2 : (b : ℝ) < 2 ^ 31 := by exact_mod_cast hb'
  have h3 : Real.sqrt ((a : ℝ) * b) ≤ 2 ^ 31 := by
    apply Real.sqrt_le_iff.2
    constructor
    · norm_num
    · have : (0 : ℝ) ≤ a := by positivity
      have : (0 : ℝ) ≤ b := by positivity
      nlinarith
  have h4 := Real.sqrt_nonneg ((a : ℝ) * b)
  exact ceilInt_eq (by positivity) (lt_of_le_of_lt (b := 2 ^ 31) (by nlinarith) (by norm_num))

include h0 h1 ha' in
theorem thr_overlap : (overlapMetric (realOps oob)).threshold α a b = ⌈α * min (a : ℝ) b⌉ := by
  have : (overlapMetric (realOps oob)).threshold α a b
      = (realOps oob).ceilInt (α * min (a : ℝ) b) := by simp [overlapMetric, realOps]
  rw [this]
  have ha2 : (a : ℝ) < 2 ^ 31 := by exact_mod_cast ha'
  have h3 : min (a : ℝ) b ≤ 2 ^ 31 := (min_le_left _ _).trans ha2.le
  have h4 : 0 ≤ min (a : ℝ) b := by positivity
  exact ceilInt_eq (by positivity) (lt_of_le_of_lt (b := 2 ^ 31) (by nlinarith) (by norm_num))

/-! ### Score against threshold -/

theorem cast_ceil_le {x : ℝ} {o : Nat} : ⌈x⌉ ≤ (o : Int) ↔ x ≤ (o : ℝ) := by
  rw [Int.ceil_le]; simp

include h0 ha hob in
theorem sim_jaccard_iff : α ≤ jaccardSim a b o ↔ ⌈α * ((a : ℝ) + b) / (1 + α)⌉ ≤ (o : Int) := by
  have ha2 : (1 : ℝ) ≤ a := by exact_mod_cast ha
  have hob2 : (o : ℝ) ≤ b := by exact_mod_cast hob
  rw [cast_ceil_le, jaccardSim, le_div_iff₀ (by linarith), div_le_iff₀ (by linarith)]
  constructor <;> intro h <;> nlinarith

include ha in
theorem sim_dice_iff : α ≤ diceSim a b o ↔ ⌈1 / 2 * α * ((a : ℝ) + b)⌉ ≤ (o : Int) := by
  have ha2 : (1 : ℝ) ≤ a := by exact_mod_cast ha
  have hb2 : (0 : ℝ) ≤ b := by positivity
  rw [cast_ceil_le, diceSim, le_div_iff₀ (by linarith)]
  constructor <;> intro h <;> linarith

include ha hb in
theorem sim_cosine_iff : α ≤ cosineSim a b o ↔ ⌈α * Real.sqrt ((a : ℝ) * b)⌉ ≤ (o : Int) := by
  have ha2 : (1 : ℝ) ≤ a := by exact_mod_cast ha
  have hb2 : (1 : ℝ) ≤ b := by exact_mod_cast hb
  have : 0 < Real.sqrt ((a : ℝ) * b) := Real.sqrt_pos.2 (by nlinarith)
  rw [cast_ceil_le, cosineSim, le_div_iff₀ this]

include ha hb in
theorem sim_overlap_iff : α ≤ overlapSim a b o ↔ ⌈α * min (a : ℝ) b⌉ ≤ (o : Int) := by
  have ha2 : (1 : ℝ) ≤ a := by exact_mod_cast ha
  have hb2 : (1 : ℝ) ≤ b := by exact_mod_cast hb
  have : 0 < min (a : ℝ) b := lt_min (by linarith) (by linarith)
  rw [cast_ceil_le, overlapSim, le_div_iff₀ this]

/-! ### Cardinality bounds -/

include h0 h1 ha hb ha' hoa hob in
theorem bounds_jaccard (hr : (a : ℝ) / α < 2 ^ 63) (h : α ≤ jaccardSim a b o) :
    (jaccardMetric (realOps oob)).minY α a ≤ b ∧ (b : Int) ≤ (jaccardMetric (realOps oob)).maxY α a := by
  have ha2 : (1 : ℝ) ≤ a := by exact_mod_cast ha
  have hb2 : (1 : ℝ) ≤ b := by exact_mod_cast hb
  have hob2 : (o : ℝ) ≤ b := by exact_mod_cast hob
  have hoa2 : (o : ℝ) ≤ a := by exact_mod_cast hoa
  have ha3 : (a : ℝ) < 2 ^ 31 := by exact_mod_cast ha'
  rw [jaccardSim, le_div_iff₀ (by linarith)] at h
  have e1 : (jaccardMetric (realOps oob)).minY α a = ⌈α * (a : ℝ)⌉ := by
    have : (jaccardMetric (realOps oob)).minY α a = (realOps oob).ceilInt (α * (a : ℝ)) := by
      simp [jaccardMetric, realOps]
    rw [this]
    exact ceilInt_eq (by positivity) (lt_of_le_of_lt (b := 2 ^ 31) (by nlinarith) (by norm_num))
  have e2 : (jaccardMetric (realOps oob)).maxY α a = ⌊(a : ℝ) / α⌋ := by
    have : (jaccardMetric (realOps oob)).maxY α a = (realOps oob).floorInt ((a : ℝ) / α) := by
      simp [jaccardMetric, realOps]
    rw [this]
    exact floorInt_eq (by positivity) hr
  rw [e1, e2, cast_ceil_le, Int.le_floor, le_div_iff₀ h0]
  push_cast
  constructor <;> nlinarith

include h0 h1 ha hb ha' hoa hob in
theorem bounds_dice (hr : (2 - α) / α * (a : ℝ) < 2 ^ 63) (h : α ≤ diceSim a b o) :
    (diceMetric (realOps oob)).minY α a ≤ b ∧ (b : Int) ≤ (diceMetric (realOps oob)).maxY α a := by
  have ha2 : (1 : ℝ) ≤ a := by exact_mod_cast ha
  have hb2 : (1 : ℝ) ≤ b := by exact_mod_cast hb
  have hob2 : (o : ℝ) ≤ b := by exact_mod_cast hob
  have hoa2 : (o : ℝ) ≤ a := by exact_mod_cast hoa
  have ha3 : (a : ℝ) < 2 ^ 31 := by exact_mod_cast ha'
  rw [diceSim, le_div_iff₀ (by linarith)] at h
  have h2a : 0 < 2 - α := by linarith
  have hq : α / (2 - α) ≤ 1 := by rw [div_le_one h2a]; linarith
  have e1 : (diceMetric (realOps oob)).minY α a = ⌈α / (2 - α) * (a : ℝ)⌉ := by
    have : (diceMetric (realOps oob)).minY α a = (realOps oob).ceilInt (α / (2 - α) * (a : ℝ)) := by
      simp [diceMetric, realOps]
    rw [this]
    exact ceilInt_eq (by positivity) (lt_of_le_of_lt (b := 2 ^ 31) (by nlinarith) (by norm_num))
  have e2 : (diceMetric (realOps oob)).maxY α a = ⌊(2 - α) / α * (a : ℝ)⌋ := by
    have : (diceMetric (realOps oob)).maxY α a = (realOps oob).floorInt ((2 - α) / α * (a : ℝ)) := by
      simp [diceMetric, realOps]
    rw [this]
    exact floorInt_eq (by positivity) hr
  rw [e1, e2, cast_ceil_le, Int.le_floor, div_mul_eq_mul_div, div_mul_eq_mul_div, div_le_iff₀ h2a, le_div_iff₀ h0]
  push_cast
  constructor <;> nlinarith

include h0 h1 ha hb ha' hoa hob in
theorem bounds_cosine (hr : (a : ℝ) / (α * α) < 2 ^ 63) (h : α ≤ cosineSim a b o) :
    (cosineMetric (realOps oob)).minY α a ≤ b ∧ (b : Int) ≤ (cosineMetric (realOps oob)).maxY α a := by
  have ha2 : (1 : ℝ) ≤ a := by exact_mod_cast ha
  have hb2 : (1 : ℝ) ≤ b := by exact_mod_cast hb
  have hob2 : (o : ℝ) ≤ b := by exact_mod_cast hob
  have hoa2 : (o : ℝ) ≤ a := by exact_mod_cast hoa
  have ha3 : (a : ℝ) < 2 ^ 31 := by exact_mod_cast ha'
  have hs : 0 < Real.sqrt ((a : ℝ) * b) := Real.sqrt_pos.2 (by nlinarith)
  rw [cosineSim, le_div_iff₀ hs] at h
  have hsq : Real.sqrt ((a : ℝ) * b) * Real.sqrt ((a : ℝ) * b) = a * b := Real.mul_self_sqrt (by positivity)
  -- α² a b ≤ o²
  have h2 : α * α * (a * b) ≤ (o : ℝ) * o := by
    have : (α * Real.sqrt ((a : ℝ) * b)) * (α * Real.sqrt ((a : ℝ) * b)) ≤ o * o :=
      mul_le_mul h h (by positivity) (by positivity)
    calc α * α * (a * b) = α * α * (Real.sqrt ((a : ℝ) * b) * Real.sqrt ((a : ℝ) * b)) := by rw [hsq]
      _ = (α * Real.sqrt ((a : ℝ) * b)) * (α * Real.sqrt ((a : ℝ) * b)) := by ring
      _ ≤ _ := this
  have e1 : (cosineMetric (realOps oob)).minY α a = ⌈α * α * (a : ℝ)⌉ := by
    have : (cosineMetric (realOps oob)).minY α a = (realOps oob).ceilInt (α * α * (a : ℝ)) := by
      simp [cosineMetric, realOps]
    rw [this]
    exact ceilInt_eq (by positivity) (lt_of_le_of_lt (b := 2 ^ 31) (by nlinarith [mul_pos h0 h0]) (by norm_num))
  have e2 : (cosineMetric (realOps oob)).maxY α a = ⌊(a : ℝ) / (α * α)⌋ := by
    have : (cosineMetric (realOps oob)).maxY α a = (realOps oob).floorInt ((a : ℝ) / (α * α)) := by
      simp [cosineMetric, realOps]
    rw [this]
    exact floorInt_eq (by positivity) hr
  rw [e1, e2, cast_ceil_le, Int.le_floor, le_div_iff₀ (mul_pos h0 h0)]
  push_cast
  have ho0 : (0 : ℝ) ≤ o := by positivity
  constructor
  · -- α² a b ≤ o² ≤ b², divide by b
    have : α * α * a * b ≤ b * b := by nlinarith
    exact le_of_mul_le_mul_right this (by linarith)
  · have : b * (α * α) * a ≤ a * a := by nlinarith
    exact le_of_mul_le_mul_right this (by linarith)

end

/-! ### Further facts used by the search -/

theorem sim_le_one_jaccard (ha : 1 ≤ a) (hoa : o ≤ a) (hob : o ≤ b) : jaccardSim a b o ≤ 1 := by
  have ha2 : (1 : ℝ) ≤ a := by exact_mod_cast ha
  have hob2 : (o : ℝ) ≤ b := by exact_mod_cast hob
  have hoa2 : (o : ℝ) ≤ a := by exact_mod_cast hoa
  rw [jaccardSim, div_le_one (by linarith)]; linarith

theorem sim_le_one_dice (ha : 1 ≤ a) (hoa : o ≤ a) (hob : o ≤ b) : diceSim a b o ≤ 1 := by
  have ha2 : (1 : ℝ) ≤ a := by exact_mod_cast ha
  have hob2 : (o : ℝ) ≤ b := by exact_mod_cast hob
  have hoa2 : (o : ℝ) ≤ a := by exact_mod_cast hoa
  have : (0 : ℝ) ≤ b := by positivity
  rw [diceSim, div_le_one (by linarith)]; linarith

theorem sim_le_one_cosine (ha : 1 ≤ a) (hb : 1 ≤ b) (hoa : o ≤ a) (hob : o ≤ b) : cosineSim a b o ≤ 1 := by
  have ha2 : (1 : ℝ) ≤ a := by exact_mod_cast ha
  have hb2 : (1 : ℝ) ≤ b := by exact_mod_cast hb
  have hob2 : (o : ℝ) ≤ b := by exact_mod_cast hob
  have hoa2 : (o : ℝ) ≤ a := by exact_mod_cast hoa
  have hs : 0 < Real.sqrt ((a : ℝ) * b) := Real.sqrt_pos.2 (by nlinarith)
  rw [cosineSim, div_le_one hs]
  apply Real.le_sqrt_of_sq_le
  have : (0 : ℝ) ≤ o := by positivity
  nlinarith

theorem sim_le_one_overlap (ha : 1 ≤ a) (hb : 1 ≤ b) (hoa : o ≤ a) (hob : o ≤ b) : overlapSim a b o ≤ 1 := by
  have ha2 : (1 : ℝ) ≤ a := by exact_mod_cast ha
  have hb2 : (1 : ℝ) ≤ b := by exact_mod_cast hb
  have hob2 : (o : ℝ) ≤ b := by exact_mod_cast hob
  have hoa2 : (o : ℝ) ≤ a := by exact_mod_cast hoa
  have : 0 < min (a : ℝ) b := lt_min (by linarith) (by linarith)
  rw [overlapSim, div_le_one this]
  exact le_min hoa2 hob2

end Verif
