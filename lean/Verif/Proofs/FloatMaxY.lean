import Verif.Proofs.FloatFacts
/- In float64 the largest similar size is at least the size of the query. -/
namespace Verif

theorem F64Metric.len_le_maxY {oob : Int} {a : Nat} {M : Metric ℚ} {sim : Nat → Nat → Nat → ℝ} (h : F64Metric oob M sim)
    (ha1 : 1 ≤ a) (ha : a ≤ 32767) {α : ℚ} (h0 : 1 / 2 ^ 20 ≤ α) (h1 : α ≤ 1) : (a : Int) ≤ M.maxY α a := by
  have h0' : 0 < α := lt_of_lt_of_le (by norm_num) h0
  have a0 : (0 : ℚ) < a := by exact_mod_cast ha1
  have ha' : a ≤ 65535 := by omega
  cases h with
  | jaccard =>
    simp only [jaccardMetric]
    rw [f64_ofNat (by omega)]
    apply f64_le_floor
    · exact nat_le_rnd53 (by omega) (by rw [le_div_iff₀ h0']; nlinarith)
    · have := rnd53_upper (show 0 ≤ (a : ℚ) / α by positivity)
      refine lt_of_le_of_lt this ?_
      have := mul_le_mul_of_nonneg_left (tiny_div h0 ha').1 (show (0 : ℚ) ≤ 1 + eps by norm_num [eps])
      refine lt_of_le_of_lt this ?_
      norm_num [eps]
  | dice =>
    simp only [diceMetric]
    rw [f64_ofNat (n := a) (by omega), show (2 : Int) = ((2 : Nat) : Int) from rfl, f64_ofNat (n := 2) (by norm_num)]
    have y1 : 1 ≤ rnd53 (2 - α) := one_le_rnd53 (by linarith)
    have g1 : 1 ≤ rnd53 (2 - α) / α := by rw [le_div_iff₀ h0']; linarith
    have g2 := one_le_rnd53 g1
    apply f64_le_floor
    · exact nat_le_rnd53 (x := rnd53 (rnd53 (2 - α) / α) * a) (by omega) (by nlinarith)
    · have y2 : rnd53 (2 - α) ≤ 2 := by
        have := rnd53_le_nat (x := 2 - α) (n := 2) (by norm_num) (by linarith) (by push_cast; linarith)
        simpa using this
      have s1 := rnd53_div_le (by linarith) h0' y2 (le_refl α)
      have s2 := rnd53_mul_le (by linarith) a0.le s1 (le_refl (a : ℚ))
      refine lt_of_le_of_lt s2 ?_
      have e : (1 + eps) * ((1 + eps) * (2 / α) * (a : ℚ)) = 2 * (1 + eps) ^ 2 * (a / α) := by ring
      rw [e]
      refine lt_of_le_of_lt (mul_le_mul_of_nonneg_left (tiny_div h0 ha').1 (by norm_num [eps])) ?_
      norm_num [eps]
  | cosine =>
    have p0 : 0 < rnd53 (α * α) := rnd53_pos (mul_pos h0' h0')
    have p1 : rnd53 (α * α) ≤ 1 := rnd53_le_one (by positivity) (by nlinarith)
    simp only [cosineMetric]
    rw [f64_ofNat (by omega)]
    apply f64_le_floor
    · exact nat_le_rnd53 (x := (a : ℚ) / rnd53 (α * α)) (by omega) (by rw [le_div_iff₀ p0]; nlinarith)
    · have l := rnd53_lower (mul_nonneg h0'.le h0'.le)
      have s := rnd53_div_le a0.le (mul_pos (by norm_num [eps]) (mul_pos h0' h0')) (le_refl (a : ℚ)) l
      refine lt_of_le_of_lt s ?_
      have e : (1 + eps) * ((a : ℚ) / ((1 - eps) * (α * α))) = (1 + eps) / (1 - eps) * (a / (α * α)) := by
        rw [div_mul_eq_div_div, div_div, mul_comm (1 - eps), ← div_div]; ring
      rw [e]
      refine lt_of_le_of_lt (mul_le_mul_of_nonneg_left (tiny_div h0 ha').2 (by norm_num [eps])) ?_
      norm_num [eps]
  | overlap =>
    show (a : Int) ≤ 32767
    omega

end Verif
