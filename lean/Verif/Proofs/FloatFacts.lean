import Verif.Proofs.FloatMetric
import Verif.Props.Metric
/- The float64 metrics satisfy `FloatFacts`. -/
namespace Verif
open Spec Verif.Props

theorem one_le_ceilQ {x : ℚ} (h : 0 < x) : 1 ≤ ⌈x⌉ := by
  have : 0 < ⌈x⌉ := Int.ceil_pos.2 h
  omega

theorem ceilQ_le {x : ℚ} {o : Nat} (h : ⌈x⌉ ≤ (o : Int)) : x ≤ o := by
  have := Int.ceil_le.1 h
  simpa using this

theorem ratio_gap {o u o' u' : Nat} (hu : 1 ≤ u) (hu' : 1 ≤ u') (hb : u ≤ 2 ^ 20) (hb' : u' ≤ 2 ^ 20)
    (h : (o : ℝ) / u < (o' : ℝ) / u') : 1 / 2 ^ 47 < (o' : ℝ) / u' - (o : ℝ) / u := by
  have u0 : (0 : ℝ) < u := by exact_mod_cast hu
  have u0' : (0 : ℝ) < u' := by exact_mod_cast hu'
  rw [div_lt_div_iff₀ u0 u0'] at h
  have h1 : o * u' + 1 ≤ o' * u := by exact_mod_cast h
  have h2 : (o : ℝ) * u' + 1 ≤ o' * u := by exact_mod_cast h1
  rw [div_sub_div _ _ u0'.ne' u0.ne', div_lt_div_iff₀ (by positivity) (mul_pos u0' u0)]
  have k1 : (u : ℝ) ≤ 2 ^ 20 := by exact_mod_cast hb
  have k2 : (u' : ℝ) ≤ 2 ^ 20 := by exact_mod_cast hb'
  have k3 : (u' : ℝ) * u ≤ 2 ^ 20 * 2 ^ 20 := mul_le_mul k2 k1 u0.le (by positivity)
  have k4 : (o' : ℝ) * u - u' * o ≥ 1 := by linarith
  calc 1 * ((u' : ℝ) * u) ≤ 2 ^ 20 * 2 ^ 20 := by linarith
    _ < 1 * 2 ^ 47 := by norm_num
    _ ≤ _ := mul_le_mul_of_nonneg_right k4 (by positivity)

/-- The score from a quotient `x ≤ 1` that is rounded to `r`. -/
theorem score_of_quot {o u : Nat} (hu : 1 ≤ u) (hou : o ≤ u) :
    let s := rnd53 (1 - rnd53 (1 - rnd53 ((o : ℚ) / (u : ℚ))))
    s ≤ 1 ∧ |((s : ℚ) : ℝ) - (o : ℝ) / u| ≤ 1 / 2 ^ 50 := by
  intro s
  have u0 : (0 : ℚ) < u := by exact_mod_cast hu
  have q0 : (0 : ℚ) ≤ (o : ℚ) / u := by positivity
  have q1 : (o : ℚ) / u ≤ 1 := by rw [div_le_one u0]; exact_mod_cast hou
  obtain ⟨s1, s2⟩ := score_round (rnd53_nonneg q0) (rnd53_le_one q0 q1)
  refine ⟨s1, ?_⟩
  have e1 := rnd53_err ((o : ℚ) / u)
  rw [abs_of_nonneg q0] at e1
  have e2 : |s - (o : ℚ) / u| ≤ 1 / 2 ^ 50 := by
    have k : eps * ((o : ℚ) / u) ≤ eps := mul_le_of_le_one_right (by norm_num [eps]) q1
    have k2 : 3 * eps ≤ 1 / 2 ^ 50 := by norm_num [eps]
    rw [abs_le] at e1 s2 ⊢
    constructor
    · have := s2.1; have := e1.1; simp only [s]; linarith
    · have := s2.2; have := e1.2; simp only [s]; linarith
  have e3 : ((|s - (o : ℚ) / u| : ℚ) : ℝ) ≤ ((1 / 2 ^ 50 : ℚ) : ℝ) := by exact_mod_cast e2
  push_cast at e3
  exact e3

section
variable {oob : Int} {a : Nat} (ha1 : 1 ≤ a) (ha : a ≤ 65535)

theorem tiny_div {α : ℚ} (h : 1 / 2 ^ 20 ≤ α) (ha : a ≤ 65535) : (a : ℚ) / α ≤ 2 ^ 61 ∧ (a : ℚ) / (α * α) ≤ 2 ^ 61 := by
  have h0 : 0 < α := lt_of_lt_of_le (by norm_num) h
  have ha' : (a : ℚ) ≤ 65535 := by exact_mod_cast ha
  constructor
  · rw [div_le_iff₀ h0]
    nlinarith
  · rw [div_le_iff₀ (mul_pos h0 h0)]
    have : (1 / 2 ^ 20 : ℚ) * (1 / 2 ^ 20) ≤ α * α := mul_le_mul h h (by norm_num) h0.le
    nlinarith

include ha1 ha in
theorem jaccard_facts : FloatFacts oob a (jaccardMetric (f64Ops oob)) jaccardSim where
  score_le_one b o hb1 hb hoa hob := by
    rw [f64_score_jaccard ha hb hoa]
    exact (score_of_quot (by omega) (by omega)).1
  score_err b o hb1 hb hoa hob := by
    rw [f64_score_jaccard ha hb hoa]
    have := (score_of_quot (o := o) (u := a + b - o) (by omega) (by omega)).2
    have e : ((a + b - o : Nat) : ℝ) = (a : ℝ) + b - o := by rw [Nat.cast_sub (by omega)]; push_cast; rfl
    rw [e] at this
    exact this
  thr_pos α h0 h1 b hb1 hb := by
    rw [f64_thr_jaccard h0 h1 ha hb]
    have : (0 : ℚ) < ((a + b : Nat) : ℚ) := by
      have : 0 < a + b := by omega
      exact_mod_cast this
    exact one_le_ceilQ (rnd53_pos (div_pos (rnd53_pos (mul_pos h0 this)) (rnd53_pos (by linarith))))
  thr_sound α h0 h1 b o hb1 hb hoa hob h := by
    rw [f64_thr_jaccard h0 h1 ha hb] at h
    have h := ceilQ_le h
    have n0 : (0 : ℚ) ≤ ((a + b : Nat) : ℚ) := by positivity
    have s1 := rnd53_lower (mul_nonneg h0.le n0)
    have s2 := rnd53_upper (show 0 ≤ 1 + α by linarith)
    have he : (0 : ℚ) < 1 - eps := by norm_num [eps]
    have s3 := le_rnd53_div (mul_nonneg he.le (mul_nonneg h0.le n0)) (rnd53_pos (show 0 < 1 + α by linarith)) s1 s2
    have s4 := s3.trans h
    rw [← mul_div_assoc, div_le_iff₀ (mul_pos (by norm_num [eps]) (by linarith))] at s4
    -- (1-ε)² α n ≤ o (1+ε)(1+α)
    have oq : (0 : ℚ) ≤ o := by positivity
    have noq : (o : ℚ) ≤ ((a + b : Nat) : ℚ) := by
      have : o ≤ a + b := by omega
      exact_mod_cast this
    have key : α * (1 - margin) * (((a + b : Nat) : ℚ) - o) ≤ o := by
      -- k = (1-ε)²/(1+ε) ≥ 1 - margin/2
      have k1 : (1 - margin / 2) * (1 + eps) ≤ (1 - eps) * (1 - eps) := by norm_num [eps, margin]
      have k2 : (1 - margin / 2) * (α * ((a + b : Nat) : ℚ)) ≤ o * (1 + α) := by
        have p : 0 ≤ α * ((a + b : Nat) : ℚ) := by positivity
        have : (1 - margin / 2) * (α * ((a + b : Nat) : ℚ)) * (1 + eps) ≤ o * (1 + α) * (1 + eps) := by
          calc (1 - margin / 2) * (α * ((a + b : Nat) : ℚ)) * (1 + eps)
              = (1 - margin / 2) * (1 + eps) * (α * ((a + b : Nat) : ℚ)) := by ring
            _ ≤ (1 - eps) * (1 - eps) * (α * ((a + b : Nat) : ℚ)) := mul_le_mul_of_nonneg_right k1 p
            _ = (1 - eps) * ((1 - eps) * (α * ((a + b : Nat) : ℚ))) := by ring
            _ ≤ _ := s4
            _ = _ := by ring
        exact le_of_mul_le_mul_right this (by norm_num [eps])
      -- o ≤ a and o ≤ b give 2 o ≤ n
      have k3 : 2 * (o : ℚ) ≤ ((a + b : Nat) : ℚ) := by
        have : 2 * o ≤ a + b := by omega
        exact_mod_cast this
      have m0 : (0 : ℚ) ≤ α * margin := mul_nonneg h0.le (by norm_num [margin])
      nlinarith
    have e : ((a : ℝ) + b - o) = ((((a + b : Nat) : ℚ) - o : ℚ) : ℝ) := by push_cast; rfl
    have pos : (0 : ℝ) < (a : ℝ) + b - o := by
      have : o < a + b := by omega
      have : (o : ℝ) < ((a + b : Nat) : ℝ) := by exact_mod_cast this
      push_cast at this; linarith
    unfold jaccardSim
    rw [le_div_iff₀ pos, e]
    have := (Rat.cast_le (K := ℝ)).2 key
    unfold margin at this
    push_cast at this ⊢
    exact this
  complete α h0 h1 b o hb1 hb hoa hob h :=
    C57_jaccard_margin_partial (lt_of_lt_of_le (by norm_num) h0) ha1 (by omega) hoa hob
      ((tiny_div h0 ha).1.trans (by norm_num)) h
  minY_pos α h0 h1 := by
    simp only [jaccardMetric]
    rw [f64_ofNat (by omega)]
    have a0 : (0 : ℚ) < a := by exact_mod_cast ha1
    have x : rnd53 (α * a) ≤ a := rnd53_le_nat (by omega) (by positivity) (by nlinarith)
    have y : (a : ℚ) ≤ 2 ^ 62 := by
      have : a ≤ 2 ^ 62 := by omega
      exact_mod_cast this
    have := f64_ceil_eq (oob := oob) (rnd53_nonneg (mul_nonneg h0.le a0.le)) (x.trans y)
    show 1 ≤ (f64Ops oob).ceilInt (rnd53 (α * a))
    rw [this]
    exact one_le_ceilQ (rnd53_pos (mul_pos h0 a0))
  minY_le α h0 h1 := by
    simp only [jaccardMetric]
    rw [f64_ofNat (by omega)]
    have a0 : (0 : ℚ) < a := by exact_mod_cast ha1
    exact f64_ceil_le (rnd53_nonneg (mul_nonneg h0.le a0.le))
      (rnd53_le_nat (by omega) (by positivity) (by nlinarith)) (by omega)
  le_maxY α h0 h1 := by
    have h0' : 0 < α := lt_of_lt_of_le (by norm_num) h0
    simp only [jaccardMetric]
    rw [f64_ofNat (by omega)]
    have a0 : (0 : ℚ) < a := by exact_mod_cast ha1
    refine (f64_ceil_le (o := a) (rnd53_nonneg (mul_nonneg h0'.le a0.le))
      (rnd53_le_nat (by omega) (by positivity) (by nlinarith)) (by omega)).trans ?_
    apply f64_le_floor
    · exact nat_le_rnd53 (by omega) (by rw [le_div_iff₀ h0']; nlinarith)
    · have := rnd53_upper (show 0 ≤ (a : ℚ) / α by positivity)
      refine lt_of_le_of_lt this ?_
      have := mul_le_mul_of_nonneg_left (tiny_div h0 ha).1 (show (0 : ℚ) ≤ 1 + eps by norm_num [eps])
      refine lt_of_le_of_lt this ?_
      norm_num [eps]
  gap b o b' o' hb1 hb hoa hob hb1' hb' hoa' hob' h := by
    have e : ∀ b o : Nat, o ≤ a → jaccardSim a b o = (o : ℝ) / ((a + b - o : Nat) : ℝ) := by
      intro b o h
      rw [Nat.cast_sub (by omega)]; push_cast; rfl
    rw [e b o hoa, e b' o' hoa'] at h ⊢
    exact ratio_gap (by omega) (by omega) (by omega) (by omega) h
  zero b := by simp [jaccardSim]

include ha1 ha in
theorem dice_facts : FloatFacts oob a (diceMetric (f64Ops oob)) diceSim where
  score_le_one b o hb1 hb hoa hob := by
    rw [f64_score_dice ha hb hoa]
    exact (score_of_quot (by omega) (by omega)).1
  score_err b o hb1 hb hoa hob := by
    rw [f64_score_dice ha hb hoa]
    have := (score_of_quot (o := 2 * o) (u := a + b) (by omega) (by omega)).2
    simpa [diceSim] using this
  thr_pos α h0 h1 b hb1 hb := by
    rw [f64_thr_dice h0 h1 ha hb]
    have : (0 : ℚ) < ((a + b : Nat) : ℚ) := by
      have : 0 < a + b := by omega
      exact_mod_cast this
    exact one_le_ceilQ (rnd53_pos (mul_pos (rnd53_pos (by linarith)) this))
  thr_sound α h0 h1 b o hb1 hb hoa hob h := by
    rw [f64_thr_dice h0 h1 ha hb] at h
    have h := ceilQ_le h
    have n0 : (0 : ℚ) ≤ ((a + b : Nat) : ℚ) := by positivity
    have he : (0 : ℚ) < 1 - eps := by norm_num [eps]
    have s1 := rnd53_lower (show 0 ≤ 1 / 2 * α by linarith)
    have s2 := le_rnd53_mul (mul_nonneg he.le (show 0 ≤ 1 / 2 * α by linarith)) n0 s1 (le_refl ((a + b : Nat) : ℚ))
    have s3 := s2.trans h
    have key : α * (1 - margin) * ((a + b : Nat) : ℚ) ≤ 2 * o := by
      have k : 1 - margin ≤ (1 - eps) * (1 - eps) := by norm_num [eps, margin]
      have p : 0 ≤ α * ((a + b : Nat) : ℚ) := by positivity
      have := mul_le_mul_of_nonneg_right k p
      linarith
    have pos : (0 : ℝ) < (a : ℝ) + b := by
      have : 0 < a + b := by omega
      exact_mod_cast this
    unfold diceSim
    rw [le_div_iff₀ pos]
    have := (Rat.cast_le (K := ℝ)).2 key
    unfold margin at this
    push_cast at this ⊢
    exact this
  complete α h0 h1 b o hb1 hb hoa hob h := by
    have h0' : 0 < α := lt_of_lt_of_le (by norm_num) h0
    refine C57_dice_margin_partial h0' h1 ha1 (by omega) (by omega) hoa hob ?_ h
    have h2 := (tiny_div h0 ha).1
    have h3 : (2 - α) / α * (a : ℚ) = (2 - α) * (a / α) := by ring
    have : 0 ≤ (a : ℚ) / α := by positivity
    rw [h3]
    nlinarith
  minY_pos α h0 h1 := by
    simp only [diceMetric]
    rw [f64_ofNat (n := a) (by omega), show (2 : Int) = ((2 : Nat) : Int) from rfl, f64_ofNat (n := 2) (by norm_num)]
    have a0 : (0 : ℚ) < a := by exact_mod_cast ha1
    have y1 : 1 ≤ rnd53 (2 - α) := one_le_rnd53 (by linarith)
    have d0 : 0 < α / rnd53 (2 - α) := div_pos h0 (by linarith)
    have d1 : α / rnd53 (2 - α) ≤ 1 := by rw [div_le_one (by linarith)]; linarith
    have r1 := rnd53_le_one d0.le d1
    have r0 := rnd53_pos d0
    have x : rnd53 (rnd53 (α / rnd53 (2 - α)) * a) ≤ a := rnd53_le_nat (by omega) (by positivity) (by nlinarith)
    have y : (a : ℚ) ≤ 2 ^ 62 := by
      have : a ≤ 2 ^ 62 := by omega
      exact_mod_cast this
    have := f64_ceil_eq (oob := oob) (rnd53_nonneg (mul_nonneg r0.le a0.le)) (x.trans y)
    show 1 ≤ (f64Ops oob).ceilInt (rnd53 (rnd53 (α / rnd53 (2 - α)) * a))
    rw [this]
    exact one_le_ceilQ (rnd53_pos (mul_pos r0 a0))
  minY_le α h0 h1 := by
    simp only [diceMetric]
    rw [f64_ofNat (n := a) (by omega), show (2 : Int) = ((2 : Nat) : Int) from rfl, f64_ofNat (n := 2) (by norm_num)]
    have a0 : (0 : ℚ) < a := by exact_mod_cast ha1
    have y1 : 1 ≤ rnd53 (2 - α) := one_le_rnd53 (by linarith)
    have d0 : 0 < α / rnd53 (2 - α) := div_pos h0 (by linarith)
    have d1 : α / rnd53 (2 - α) ≤ 1 := by rw [div_le_one (by linarith)]; linarith
    have r1 := rnd53_le_one d0.le d1
    have r0 := rnd53_pos d0
    exact f64_ceil_le (rnd53_nonneg (mul_nonneg r0.le a0.le))
      (rnd53_le_nat (x := rnd53 (α / rnd53 (2 - α)) * a) (by omega) (mul_nonneg r0.le a0.le) (by nlinarith)) (by omega)
  le_maxY α h0 h1 := by
    have h0' : 0 < α := lt_of_lt_of_le (by norm_num) h0
    simp only [diceMetric]
    rw [f64_ofNat (n := a) (by omega), show (2 : Int) = ((2 : Nat) : Int) from rfl, f64_ofNat (n := 2) (by norm_num)]
    have a0 : (0 : ℚ) < a := by exact_mod_cast ha1
    have y1 : 1 ≤ rnd53 (2 - α) := one_le_rnd53 (by linarith)
    have d0 : 0 < α / rnd53 (2 - α) := div_pos h0' (by linarith)
    have d1 : α / rnd53 (2 - α) ≤ 1 := by rw [div_le_one (by linarith)]; linarith
    have r1 := rnd53_le_one d0.le d1
    have r0 := rnd53_pos d0
    refine (f64_ceil_le (o := a) (rnd53_nonneg (mul_nonneg r0.le a0.le))
      (rnd53_le_nat (by omega) (mul_nonneg r0.le a0.le) (by nlinarith)) (by omega)).trans ?_
    have g1 : 1 ≤ rnd53 (2 - α) / α := by rw [le_div_iff₀ h0']; linarith
    have g2 := one_le_rnd53 g1
    apply f64_le_floor
    · exact nat_le_rnd53 (x := rnd53 (rnd53 (2 - α) / α) * a) (by omega) (by nlinarith)
    · have y2 : rnd53 (2 - α) ≤ 2 := by
        have := rnd53_le_nat (x := 2 - α) (n := 2) (by norm_num) (by linarith) (by push_cast; linarith)
        simpa using this
      have s1 := rnd53_div_le (by linarith) h0' y2 (le_refl α)
      have s2 := rnd53_mul_le (by linarith) a0.le s1 (le_refl (a : ℚ))
      refine lt_of_le_of_lt s2 ?_
      have e : (1 + eps) * ((1 + eps) * (2 / α) * (a : ℚ)) = 2 * (1 + eps) ^ 2 * (a / α) := by ring
      rw [e]
      refine lt_of_le_of_lt (mul_le_mul_of_nonneg_left (tiny_div h0 ha).1 (by norm_num [eps])) ?_
      norm_num [eps]
  gap b o b' o' hb1 hb hoa hob hb1' hb' hoa' hob' h := by
    have e : ∀ b o : Nat, diceSim a b o = ((2 * o : Nat) : ℝ) / ((a + b : Nat) : ℝ) := by
      intro b o
      push_cast; rfl
    rw [e b o, e b' o'] at h ⊢
    exact ratio_gap (by omega) (by omega) (by omega) (by omega) h
  zero b := by simp [diceSim]

include ha1 ha in
theorem overlap_facts : FloatFacts oob a (overlapMetric (f64Ops oob)) overlapSim where
  score_le_one b o hb1 hb hoa hob := by
    rw [f64_score_overlap ha hb hoa]
    exact (score_of_quot (by omega) (by omega)).1
  score_err b o hb1 hb hoa hob := by
    rw [f64_score_overlap ha hb hoa]
    have := (score_of_quot (o := o) (u := min a b) (by omega) (by omega)).2
    simpa [overlapSim] using this
  thr_pos α h0 h1 b hb1 hb := by
    rw [f64_thr_overlap h0 h1 ha hb]
    have : (0 : ℚ) < ((min a b : Nat) : ℚ) := by
      have : 0 < min a b := by omega
      exact_mod_cast this
    exact one_le_ceilQ (rnd53_pos (mul_pos h0 this))
  thr_sound α h0 h1 b o hb1 hb hoa hob h := by
    rw [f64_thr_overlap h0 h1 ha hb] at h
    have h := ceilQ_le h
    have n0 : (0 : ℚ) < ((min a b : Nat) : ℚ) := by
      have : 0 < min a b := by omega
      exact_mod_cast this
    have s3 := (rnd53_lower (mul_nonneg h0.le n0.le)).trans h
    have key : α * (1 - margin) * ((min a b : Nat) : ℚ) ≤ o := by
      have k : 1 - margin ≤ 1 - eps := by norm_num [eps, margin]
      have := mul_le_mul_of_nonneg_right k (mul_nonneg h0.le n0.le)
      linarith
    have pos : (0 : ℝ) < min (a : ℝ) b := by
      have : (0 : ℝ) < ((min a b : Nat) : ℝ) := by exact_mod_cast n0
      simpa using this
    unfold overlapSim
    rw [le_div_iff₀ pos]
    have := (Rat.cast_le (K := ℝ)).2 key
    unfold margin at this
    push_cast at this ⊢
    exact this
  complete α h0 h1 b o hb1 hb hoa hob h :=
    C57_overlap_margin_partial (lt_of_lt_of_le (by norm_num) h0) ha1 (by omega) (by omega) hoa hob ⟨hb1, hb⟩ h
  minY_pos α h0 h1 := le_refl (1 : Int)
  minY_le α h0 h1 := by show (1 : Int) ≤ a; omega
  le_maxY α h0 h1 := by show (1 : Int) ≤ 32767; omega
  gap b o b' o' hb1 hb hoa hob hb1' hb' hoa' hob' h := by
    have e : ∀ b o : Nat, overlapSim a b o = (o : ℝ) / ((min a b : Nat) : ℝ) := by
      intro b o
      push_cast; rfl
    rw [e b o, e b' o'] at h ⊢
    exact ratio_gap (by omega) (by omega) (by omega) (by omega) h
  zero b := by simp [overlapSim]

/-! ### Cosine -/

/-- The rounded square root, compared with the real one. -/
theorem sqrt53_real {q : ℚ} (hq : 1 ≤ q) : (1 - (eps : ℝ)) ^ 2 * Real.sqrt q ≤ (sqrt53 q : ℝ) ∧
    (sqrt53 q : ℝ) ≤ (1 + (eps : ℝ)) ^ 2 * Real.sqrt q := by
  obtain ⟨h0, h1⟩ := sqrt53_upper hq
  have h2 := sqrt53_lower hq
  have q0 : (0 : ℝ) ≤ q := by exact_mod_cast (by linarith : (0 : ℚ) ≤ q)
  have e0 : (0 : ℝ) ≤ 1 - (eps : ℝ) := by norm_num [eps]
  have e1 : (0 : ℝ) ≤ 1 + (eps : ℝ) := by norm_num [eps]
  have h0' : (0 : ℝ) ≤ (sqrt53 q : ℝ) := by exact_mod_cast h0
  have h1' : ((sqrt53 q : ℝ)) ^ 2 ≤ ((1 + (eps : ℝ)) ^ 2) ^ 2 * q := by exact_mod_cast h1
  have h2' : ((1 - (eps : ℝ)) ^ 2) ^ 2 * q ≤ ((sqrt53 q : ℝ)) ^ 2 := by exact_mod_cast h2
  constructor
  · apply le_of_sq_le_sq _ h0'
    rw [mul_pow, Real.sq_sqrt q0]; exact h2'
  · apply le_of_sq_le_sq _ (by positivity)
    rw [mul_pow, Real.sq_sqrt q0]; exact h1'

include ha1 ha in
theorem cosine_facts : FloatFacts oob a (cosineMetric (f64Ops oob)) cosineSim := by
  have a0 : (0 : ℚ) < a := by exact_mod_cast ha1
  have a62 : (a : ℚ) ≤ 2 ^ 62 := by
    have : a ≤ 2 ^ 62 := by omega
    exact_mod_cast this
  -- the quotient
  have quot : ∀ b o : Nat, 1 ≤ b → b ≤ 32767 → o ≤ a → o ≤ b →
      0 ≤ (o : ℚ) / sqrt53 ((a * b : Nat) : ℚ) ∧ (o : ℚ) / sqrt53 ((a * b : Nat) : ℚ) ≤ 1 := by
    intro b o hb1 hb hoa hob
    obtain ⟨s1, s2⟩ := sqrt53_ab ha1 hb1 ha hb
    have h1 : 1 ≤ a * b := Nat.mul_pos ha1 hb1
    have q1 : (1 : ℚ) ≤ ((a * b : Nat) : ℚ) := by exact_mod_cast h1
    have := nat_le_sqrt53 (o := o) (q := ((a * b : Nat) : ℚ)) (by omega) q1
      (by have : o * o ≤ a * b := Nat.mul_le_mul hoa hob
          exact_mod_cast this)
    exact ⟨by positivity, by rw [div_le_one (by linarith)]; exact this⟩
  have hσ : ∀ b : Nat, 1 ≤ b → (1 : ℝ) ≤ Real.sqrt ((a : ℝ) * b) := by
    intro b hb1
    rw [Real.one_le_sqrt]
    have h1 : 1 ≤ a * b := Nat.mul_pos ha1 hb1
    exact_mod_cast h1
  have hs : ∀ b : Nat, 1 ≤ b → (1 - (eps : ℝ)) ^ 2 * Real.sqrt ((a : ℝ) * b) ≤ (sqrt53 ((a * b : Nat) : ℚ) : ℝ) ∧
      (sqrt53 ((a * b : Nat) : ℚ) : ℝ) ≤ (1 + (eps : ℝ)) ^ 2 * Real.sqrt ((a : ℝ) * b) := by
    intro b hb1
    have h1 : 1 ≤ a * b := Nat.mul_pos ha1 hb1
    have := sqrt53_real (q := ((a * b : Nat) : ℚ)) (by exact_mod_cast h1)
    push_cast at this ⊢
    exact this
  have haa : ∀ α : ℚ, 0 < α → α ≤ 1 → 0 < rnd53 (α * α) ∧ rnd53 (α * α) ≤ 1 := fun α h0 h1 =>
    ⟨rnd53_pos (mul_pos h0 h0), rnd53_le_one (by positivity) (by nlinarith)⟩
  refine ⟨?_, ?_, ?_, ?_, ?_, ?_, ?_, ?_, ?_, ?_⟩
  · intro b o hb1 hb hoa hob
    rw [f64_score_cosine ha hb hoa]
    obtain ⟨q0, q1⟩ := quot b o hb1 hb hoa hob
    exact (score_round (rnd53_nonneg q0) (rnd53_le_one q0 q1)).1
  · intro b o hb1 hb hoa hob
    rw [f64_score_cosine ha hb hoa]
    obtain ⟨q0, q1⟩ := quot b o hb1 hb hoa hob
    obtain ⟨_, s2⟩ := score_round (rnd53_nonneg q0) (rnd53_le_one q0 q1)
    have e1 := rnd53_err ((o : ℚ) / sqrt53 ((a * b : Nat) : ℚ))
    rw [abs_of_nonneg q0] at e1
    have k : eps * ((o : ℚ) / sqrt53 ((a * b : Nat) : ℚ)) ≤ eps := mul_le_of_le_one_right (by norm_num [eps]) q1
    generalize hsc : rnd53 (1 - rnd53 (1 - rnd53 ((o : ℚ) / sqrt53 ((a * b : Nat) : ℚ)))) = sc at s2 ⊢
    have e2 : |sc - (o : ℚ) / sqrt53 ((a * b : Nat) : ℚ)| ≤ 3 * eps := by
      rw [abs_le] at e1 s2 ⊢
      constructor
      · have := s2.1; have := e1.1; linarith
      · have := s2.2; have := e1.2; linarith
    have e3 : ((|sc - (o : ℚ) / sqrt53 ((a * b : Nat) : ℚ)| : ℚ) : ℝ) ≤ ((3 * eps : ℚ) : ℝ) := by exact_mod_cast e2
    rw [Rat.cast_abs, Rat.cast_sub, Rat.cast_div] at e3
    obtain ⟨t1, t2⟩ := hs b hb1
    have σ1 := hσ b hb1
    have sim1 : cosineSim a b o ≤ 1 := sim_le_one_cosine ha1 hb1 hoa hob
    unfold cosineSim at sim1 ⊢
    generalize Real.sqrt ((a : ℝ) * b) = σ at t1 t2 σ1 sim1 ⊢
    generalize (sqrt53 ((a * b : Nat) : ℚ) : ℝ) = s at t1 t2 e3
    rw [Rat.cast_natCast] at e3
    have o0 : (0 : ℝ) ≤ o := by positivity
    have σ0 : 0 < σ := by linarith
    have s0 : 0 < s := lt_of_lt_of_le (mul_pos (by norm_num [eps]) σ0) t1
    have f0 : 0 ≤ (o : ℝ) / σ := by positivity
    have u1 : (o : ℝ) / s ≤ (1 + 3 * (eps : ℝ)) * (o / σ) := by
      rw [div_le_iff₀ s0]
      have : (1 : ℝ) ≤ (1 + 3 * (eps : ℝ)) * (1 - (eps : ℝ)) ^ 2 := by norm_num [eps]
      have h3 : (o : ℝ) / σ * σ = o := by field_simp
      calc (o : ℝ) = 1 * ((o : ℝ) / σ * σ) := by rw [h3, one_mul]
        _ ≤ (1 + 3 * (eps : ℝ)) * (1 - (eps : ℝ)) ^ 2 * ((o : ℝ) / σ * σ) :=
            mul_le_mul_of_nonneg_right this (by positivity)
        _ = (1 + 3 * (eps : ℝ)) * (o / σ) * ((1 - (eps : ℝ)) ^ 2 * σ) := by ring
        _ ≤ _ := mul_le_mul_of_nonneg_left t1 (mul_nonneg (by norm_num [eps]) f0)
    have u2 : (1 - 3 * (eps : ℝ)) * (o / σ) ≤ (o : ℝ) / s := by
      rw [le_div_iff₀ s0]
      have : (1 - 3 * (eps : ℝ)) * (1 + (eps : ℝ)) ^ 2 ≤ 1 := by norm_num [eps]
      have h3 : (o : ℝ) / σ * σ = o := by field_simp
      calc (1 - 3 * (eps : ℝ)) * (o / σ) * s ≤ (1 - 3 * (eps : ℝ)) * (o / σ) * ((1 + (eps : ℝ)) ^ 2 * σ) :=
            mul_le_mul_of_nonneg_left t2 (mul_nonneg (by norm_num [eps]) f0)
        _ = (1 - 3 * (eps : ℝ)) * (1 + (eps : ℝ)) ^ 2 * ((o : ℝ) / σ * σ) := by ring
        _ ≤ 1 * ((o : ℝ) / σ * σ) := mul_le_mul_of_nonneg_right this (by positivity)
        _ = o := by rw [h3, one_mul]
    have c1 : 3 * (eps : ℝ) * (o / σ) ≤ 3 * (eps : ℝ) := mul_le_of_le_one_right (by norm_num [eps]) sim1
    have c2 : 6 * (eps : ℝ) ≤ 1 / 2 ^ 50 := by norm_num [eps]
    have c3 : ((3 * eps : ℚ) : ℝ) = 3 * (eps : ℝ) := by push_cast; rfl
    rw [c3] at e3
    rw [abs_le] at e3 ⊢
    constructor
    · linarith [e3.1]
    · linarith [e3.2]
  · intro α h0 h1 b hb1 hb
    rw [f64_thr_cosine h0 h1 ha1 hb1 ha hb]
    obtain ⟨s1, s2⟩ := sqrt53_ab ha1 hb1 ha hb
    exact one_le_ceilQ (rnd53_pos (mul_pos h0 (by linarith)))
  · intro α h0 h1 b o hb1 hb hoa hob h
    rw [f64_thr_cosine h0 h1 ha1 hb1 ha hb] at h
    have h := ceilQ_le h
    obtain ⟨s1, s2⟩ := sqrt53_ab ha1 hb1 ha hb
    have h3 := (rnd53_lower (mul_nonneg h0.le (by linarith : 0 ≤ sqrt53 ((a * b : Nat) : ℚ)))).trans h
    have h4 := (Rat.cast_le (K := ℝ)).2 h3
    obtain ⟨t1, t2⟩ := hs b hb1
    have σ1 := hσ b hb1
    unfold cosineSim
    rw [le_div_iff₀ (by linarith)]
    rw [Rat.cast_mul, Rat.cast_mul, Rat.cast_natCast] at h4
    generalize Real.sqrt ((a : ℝ) * b) = σ at t1 t2 σ1 ⊢
    generalize (sqrt53 ((a * b : Nat) : ℚ) : ℝ) = s at t1 t2 h4
    refine le_trans ?_ h4
    have α0 : (0 : ℝ) < α := by exact_mod_cast h0
    have k : (1 - 1 / 2 ^ 48 : ℝ) ≤ (1 - (eps : ℝ)) * (1 - (eps : ℝ)) ^ 2 := by norm_num [eps]
    calc (α : ℝ) * (1 - 1 / 2 ^ 48) * σ = (1 - 1 / 2 ^ 48) * (α * σ) := by ring
      _ ≤ (1 - (eps : ℝ)) * (1 - (eps : ℝ)) ^ 2 * (α * σ) := mul_le_mul_of_nonneg_right k (by positivity)
      _ = (1 - (eps : ℝ)) * (α * ((1 - (eps : ℝ)) ^ 2 * σ)) := by ring
      _ ≤ (1 - (eps : ℝ)) * (α * s) :=
          mul_le_mul_of_nonneg_left (mul_le_mul_of_nonneg_left t1 α0.le) (by norm_num [eps])
      _ = _ := by push_cast; ring
  · intro α h0 h1 b o hb1 hb hoa hob h
    exact C57_cosine_margin_partial (lt_of_lt_of_le (by norm_num) h0) ha1 hb1 (by omega) (by omega) hoa hob
      ((tiny_div h0 ha).2.trans (by norm_num)) h
  · intro α h0 h1
    obtain ⟨p0, p1⟩ := haa α h0 h1
    simp only [cosineMetric]
    rw [f64_ofNat (by omega)]
    have x : rnd53 (rnd53 (α * α) * a) ≤ a := rnd53_le_nat (by omega) (by positivity) (by nlinarith)
    have := f64_ceil_eq (oob := oob) (rnd53_nonneg (mul_nonneg p0.le a0.le)) (x.trans a62)
    show 1 ≤ (f64Ops oob).ceilInt (rnd53 (rnd53 (α * α) * a))
    rw [this]
    exact one_le_ceilQ (rnd53_pos (mul_pos p0 a0))
  · intro α h0 h1
    obtain ⟨p0, p1⟩ := haa α h0 h1
    simp only [cosineMetric]
    rw [f64_ofNat (by omega)]
    exact f64_ceil_le (rnd53_nonneg (mul_nonneg p0.le a0.le))
      (rnd53_le_nat (x := rnd53 (α * α) * a) (by omega) (mul_nonneg p0.le a0.le) (by nlinarith)) (by omega)
  · intro α h0 h1
    have h0' : 0 < α := lt_of_lt_of_le (by norm_num) h0
    obtain ⟨p0, p1⟩ := haa α h0' h1
    simp only [cosineMetric]
    rw [f64_ofNat (by omega)]
    refine (f64_ceil_le (o := a) (rnd53_nonneg (mul_nonneg p0.le a0.le))
      (rnd53_le_nat (by omega) (mul_nonneg p0.le a0.le) (by nlinarith)) (by omega)).trans ?_
    apply f64_le_floor
    · exact nat_le_rnd53 (x := (a : ℚ) / rnd53 (α * α)) (by omega) (by rw [le_div_iff₀ p0]; nlinarith)
    · have l := rnd53_lower (mul_nonneg h0'.le h0'.le)
      have s := rnd53_div_le a0.le (mul_pos (by norm_num [eps]) (mul_pos h0' h0')) (le_refl (a : ℚ)) l
      refine lt_of_le_of_lt s ?_
      have e : (1 + eps) * ((a : ℚ) / ((1 - eps) * (α * α))) = (1 + eps) / (1 - eps) * (a / (α * α)) := by
        rw [div_mul_eq_div_div, div_div, mul_comm (1 - eps), ← div_div]; ring
      rw [e]
      refine lt_of_le_of_lt (mul_le_mul_of_nonneg_left (tiny_div h0 ha).2 (by norm_num [eps])) ?_
      norm_num [eps]
  · intro b o b' o' hb1 hb hoa hob hb1' hb' hoa' hob' h
    have x1 := sim_le_one_cosine ha1 hb1 hoa hob
    have x2 := sim_le_one_cosine ha1 hb1' hoa' hob'
    have nn : ∀ b o : Nat, 0 ≤ cosineSim a b o := fun b o => by unfold cosineSim; positivity
    have sq : ∀ b o : Nat, 1 ≤ b → cosineSim a b o ^ 2 = (o : ℝ) ^ 2 / ((a : ℝ) * b) := by
      intro b o _
      unfold cosineSim
      rw [div_pow, Real.sq_sqrt (by positivity)]
    have hlt := pow_lt_pow_left₀ h (nn b o) (two_ne_zero)
    have d : 1 / ((a : ℝ) * b * b') ≤ cosineSim a b' o' ^ 2 - cosineSim a b o ^ 2 := by
      rw [sq b o hb1, sq b' o' hb1'] at hlt ⊢
      have aR : (0 : ℝ) < a := by exact_mod_cast ha1
      have bR : (0 : ℝ) < b := by exact_mod_cast hb1
      have bR' : (0 : ℝ) < b' := by exact_mod_cast hb1'
      rw [div_lt_div_iff₀ (by positivity) (by positivity)] at hlt
      have h1 : (o : ℝ) ^ 2 * b' < o' ^ 2 * b := by
        have : (a : ℝ) * (o ^ 2 * b') < a * (o' ^ 2 * b) := by linarith
        exact lt_of_mul_lt_mul_left this aR.le
      have h2 : o ^ 2 * b' + 1 ≤ o' ^ 2 * b := by exact_mod_cast h1
      have h3 : (o : ℝ) ^ 2 * b' + 1 ≤ o' ^ 2 * b := by exact_mod_cast h2
      have e : (o' : ℝ) ^ 2 / (a * b') - o ^ 2 / (a * b) = (o' ^ 2 * b - o ^ 2 * b') / (a * b * b') := by
        field_simp
      rw [e]
      exact div_le_div_of_nonneg_right (by linarith) (by positivity)
    have f : cosineSim a b' o' ^ 2 - cosineSim a b o ^ 2
        = (cosineSim a b' o' - cosineSim a b o) * (cosineSim a b' o' + cosineSim a b o) := by ring
    have g : (cosineSim a b' o' - cosineSim a b o) * (cosineSim a b' o' + cosineSim a b o)
        ≤ (cosineSim a b' o' - cosineSim a b o) * 2 := mul_le_mul_of_nonneg_left (by linarith) (by linarith)
    have k : 2 * (1 / 2 ^ 47 : ℝ) < 1 / ((a : ℝ) * b * b') := by
      have n : a * b * b' ≤ 65535 * 32767 * 32767 := Nat.mul_le_mul (Nat.mul_le_mul ha hb) hb'
      have n' : (a : ℝ) * b * b' ≤ 65535 * 32767 * 32767 := by exact_mod_cast n
      have p : 0 < a * b * b' := Nat.mul_pos (Nat.mul_pos ha1 hb1) hb1'
      have p' : (0 : ℝ) < (a : ℝ) * b * b' := by exact_mod_cast p
      rw [lt_div_iff₀ p']
      calc 2 * (1 / 2 ^ 47 : ℝ) * ((a : ℝ) * b * b') ≤ 2 * (1 / 2 ^ 47) * (65535 * 32767 * 32767) :=
            mul_le_mul_of_nonneg_left n' (by norm_num)
        _ < 1 := by norm_num
    linarith
  · intro b; simp [cosineSim]

end

theorem F64Metric.facts {oob : Int} {a : Nat} {M : Metric ℚ} {sim : Nat → Nat → Nat → ℝ} (h : F64Metric oob M sim)
    (ha1 : 1 ≤ a) (ha : a ≤ 65535) : FloatFacts oob a M sim := by
  cases h with
  | jaccard => exact jaccard_facts ha1 ha
  | dice => exact dice_facts ha1 ha
  | cosine => exact cosine_facts ha1 ha
  | overlap => exact overlap_facts ha1 ha

end Verif
