import Verif.Proofs.Metric
import Mathlib.Data.Nat.Log
/- Error bounds of the float64 model (Verif/Model/Metric.lean). -/
namespace Verif
open Spec

/-- The relative rounding error. -/
def eps : ℚ := 1 / 2 ^ 53

theorem twoPow_eq (e : Int) : twoPow e = (2 : ℚ) ^ e := by
  unfold twoPow
  split
  · rename_i h
    obtain ⟨n, rfl⟩ := Int.eq_ofNat_of_zero_le h
    simp
  · rename_i h
    obtain ⟨n, hn⟩ := Int.eq_ofNat_of_zero_le (show 0 ≤ -e by omega)
    have : e = -(n : Int) := by omega
    subst this
    simp

theorem exponent_le {q : ℚ} (hq : q ≠ 0) : twoPow (exponent q) ≤ |q| := by
  unfold exponent
  simp only
  split
  · assumption
  · rw [twoPow_eq]
    have hn0 : q.num.natAbs ≠ 0 := by simpa using hq
    have h1 : 2 ^ (Nat.log2 q.num.natAbs) ≤ q.num.natAbs := Nat.log2_self_le hn0
    have h2 : q.den < 2 ^ (Nat.log2 q.den + 1) := Nat.lt_log2_self
    have e : |q| = (q.num.natAbs : ℚ) / q.den := by
      conv_lhs => rw [← Rat.num_div_den q]
      rw [abs_div, Nat.abs_cast]
      congr 1
      rw [Nat.cast_natAbs]; simp
    have hd : (0 : ℚ) < q.den := by exact_mod_cast q.den_pos
    rw [e, le_div_iff₀ hd]
    have h1' : (2 : ℚ) ^ (Nat.log2 q.num.natAbs) ≤ q.num.natAbs := by exact_mod_cast h1
    have h2' : (q.den : ℚ) ≤ 2 ^ (Nat.log2 q.den + 1) := by exact_mod_cast h2.le
    have hpos : (0 : ℚ) < 2 ^ ((Nat.log2 q.num.natAbs : Int) - Nat.log2 q.den - 1) := by positivity
    calc (2 : ℚ) ^ ((Nat.log2 q.num.natAbs : Int) - Nat.log2 q.den - 1) * q.den
        ≤ 2 ^ ((Nat.log2 q.num.natAbs : Int) - Nat.log2 q.den - 1) * 2 ^ (Nat.log2 q.den + 1) :=
          mul_le_mul_of_nonneg_left h2' hpos.le
      _ = 2 ^ (Nat.log2 q.num.natAbs) := by
          rw [← zpow_natCast (2 : ℚ) (Nat.log2 q.den + 1), ← zpow_add₀ (by norm_num), ← zpow_natCast]
          congr 1
          push_cast; ring
      _ ≤ _ := h1'

theorem roundEven_err (x : ℚ) : |(roundEven x : ℚ) - x| ≤ 1 / 2 := by
  have h1 := Int.floor_le x
  have h2 := Int.lt_floor_add_one x
  unfold roundEven
  simp only
  rw [abs_le]
  split_ifs <;> constructor <;> push_cast <;> linarith

theorem rnd53_err (q : ℚ) : |rnd53 q - q| ≤ eps * |q| := by
  unfold rnd53
  split
  · rename_i h; simp [h]
  · rename_i hq
    simp only
    obtain ⟨u, hu⟩ : ∃ u, twoPow (exponent q - 52) = u := ⟨_, rfl⟩
    have hu0 : 0 < u := by rw [← hu, twoPow_eq]; positivity
    have hue : u = twoPow (exponent q) / 2 ^ 52 := by
      rw [← hu, twoPow_eq, twoPow_eq, zpow_sub₀ (by norm_num)]; norm_num
    rw [hu]
    have h1 := roundEven_err (q / u)
    have h2 : (roundEven (q / u) : ℚ) * u - q = ((roundEven (q / u) : ℚ) - q / u) * u := by
      field_simp
    rw [h2, abs_mul, abs_of_pos hu0]
    have h3 := exponent_le hq
    calc |(roundEven (q / u) : ℚ) - q / u| * u ≤ 1 / 2 * u := mul_le_mul_of_nonneg_right h1 hu0.le
      _ = eps * twoPow (exponent q) := by rw [hue, eps]; ring
      _ ≤ eps * |q| := mul_le_mul_of_nonneg_left h3 (by norm_num [eps])

theorem rnd53_upper {q : ℚ} (h : 0 ≤ q) : rnd53 q ≤ (1 + eps) * q := by
  have := rnd53_err q
  rw [abs_of_nonneg h, abs_le] at this
  linarith [this.2]

theorem rnd53_lower {q : ℚ} (h : 0 ≤ q) : (1 - eps) * q ≤ rnd53 q := by
  have := rnd53_err q
  rw [abs_of_nonneg h, abs_le] at this
  linarith [this.1]

theorem rnd53_nonneg {q : ℚ} (h : 0 ≤ q) : 0 ≤ rnd53 q :=
  le_trans (mul_nonneg (by norm_num [eps]) h) (rnd53_lower h)

theorem f64_ceil_le {oob : Int} {x : ℚ} {o : Nat} (h0 : 0 ≤ x) (h1 : x ≤ o) (ho : o < 2 ^ 63) :
    (f64Ops oob).ceilInt x ≤ o := by
  have h2 : ⌈x⌉ ≤ (o : Int) := Int.ceil_le.2 (by exact_mod_cast h1)
  show toInt64 oob ⌈x⌉ ≤ o
  rw [toInt64_of_range]
  · exact h2
  · exact le_trans (by norm_num) (Int.ceil_nonneg h0)
  · exact lt_of_le_of_lt h2 (by exact_mod_cast ho)

theorem f64_le_floor {oob : Int} {x : ℚ} {b : Nat} (h1 : (b : ℚ) ≤ x) (h2 : x < 2 ^ 63) :
    (b : Int) ≤ (f64Ops oob).floorInt x := by
  have h3 : (b : Int) ≤ ⌊x⌋ := Int.le_floor.2 (by exact_mod_cast h1)
  show (b : Int) ≤ toInt64 oob ⌊x⌋
  rw [toInt64_of_range]
  · exact h3
  · exact le_trans (by norm_num) (le_trans (Int.natCast_nonneg b) h3)
  · exact Int.floor_lt.2 (by norm_num at h2 ⊢; exact h2)

theorem rnd53_one : rnd53 1 = 1 := by decide +kernel
theorem rnd53_two : rnd53 2 = 2 := by decide +kernel
theorem rnd53_half : rnd53 (1 / 2) = 1 / 2 := by decide +kernel

/-- The margin. -/
def margin : ℚ := 1 / 2 ^ 48

theorem rnd53_mul_le {x X y Y : ℚ} (hx : 0 ≤ x) (hy : 0 ≤ y) (hX : x ≤ X) (hY : y ≤ Y) :
    rnd53 (x * y) ≤ (1 + eps) * (X * Y) :=
  (rnd53_upper (mul_nonneg hx hy)).trans
    (mul_le_mul_of_nonneg_left (mul_le_mul hX hY hy (hx.trans hX)) (by norm_num [eps]))

theorem le_rnd53_mul {x X y Y : ℚ} (hX0 : 0 ≤ X) (hY0 : 0 ≤ Y) (hX : X ≤ x) (hY : Y ≤ y) :
    (1 - eps) * (X * Y) ≤ rnd53 (x * y) :=
  (mul_le_mul_of_nonneg_left (mul_le_mul hX hY hY0 (hX0.trans hX)) (by norm_num [eps])).trans
    (rnd53_lower (mul_nonneg (hX0.trans hX) (hY0.trans hY)))

theorem rnd53_div_le {x X y Y : ℚ} (hx : 0 ≤ x) (hY0 : 0 < Y) (hX : x ≤ X) (hY : Y ≤ y) :
    rnd53 (x / y) ≤ (1 + eps) * (X / Y) :=
  (rnd53_upper (div_nonneg hx (hY0.le.trans hY))).trans
    (mul_le_mul_of_nonneg_left (div_le_div₀ (hx.trans hX) hX hY0 hY) (by norm_num [eps]))

theorem le_rnd53_div {x X y Y : ℚ} (hX0 : 0 ≤ X) (hy : 0 < y) (hX : X ≤ x) (hY : y ≤ Y) :
    (1 - eps) * (X / Y) ≤ rnd53 (x / y) :=
  (mul_le_mul_of_nonneg_left (div_le_div₀ (hX0.trans hX) hX hy hY) (by norm_num [eps])).trans
    (rnd53_lower (div_nonneg (hX0.trans hX) hy.le))

section
variable {oob : Int} {α : ℚ} {a b o : Nat} (h0 : 0 < α) (h1 : α ≤ 1) (ha : 1 ≤ a) (hb : 1 ≤ b)
  (ha' : a < 2 ^ 31) (hb' : b < 2 ^ 31) (hoa : o ≤ a) (hob : o ≤ b)

include h0 ha' hoa hob in
theorem f64_jaccard (hr : (a : ℚ) / α ≤ 2 ^ 62)
    (h : α * (1 + margin) * ((a : ℚ) + b - o) ≤ o) :
    let M := jaccardMetric (f64Ops oob)
    M.threshold α a b ≤ o ∧ M.minY α a ≤ b ∧ (b : Int) ≤ M.maxY α a := by
  have ho2 : o < 2 ^ 63 := lt_of_le_of_lt hoa (ha'.trans (by norm_num))
  have hoa2 : (o : ℚ) ≤ a := by exact_mod_cast hoa
  have hob2 : (o : ℚ) ≤ b := by exact_mod_cast hob
  have ha0 : (0 : ℚ) ≤ a := by positivity
  have hb0 : (0 : ℚ) ≤ b := by positivity
  have ho0 : (0 : ℚ) ≤ o := by positivity
  have ea := rnd53_upper ha0
  have la := rnd53_lower ha0
  have na := rnd53_nonneg ha0
  have he : (0 : ℚ) < 1 - eps := by norm_num [eps]
  simp only [jaccardMetric]
  refine ⟨?_, ?_, ?_⟩
  · apply f64_ceil_le _ _ ho2
    · simp only [f64Ops]
      apply rnd53_nonneg
      apply div_nonneg
      · exact rnd53_nonneg (mul_nonneg h0.le (rnd53_nonneg (by push_cast; positivity)))
      · apply rnd53_nonneg
        push_cast
        rw [rnd53_one]; linarith
    · simp only [f64Ops]
      push_cast
      rw [rnd53_one]
      have hab : (0 : ℚ) ≤ a + b := by positivity
      have s1 := rnd53_upper hab
      have s2 := rnd53_mul_le h0.le (rnd53_nonneg hab) le_rfl s1
      have s3 := rnd53_lower (show 0 ≤ 1 + α by linarith)
      have s4 := rnd53_div_le (rnd53_nonneg (mul_nonneg h0.le (rnd53_nonneg hab)))
        (mul_pos he (by linarith : 0 < 1 + α)) s2 s3
      refine s4.trans ?_
      rw [← mul_div_assoc, div_le_iff₀ (mul_pos he (by linarith))]
      have k1 : α * (a + b) * (1 + margin / 2) ≤ o * (1 + α) := by
        have : α * margin * o ≤ α * margin * ((a + b) / 2) :=
          mul_le_mul_of_nonneg_left (by linarith) (mul_nonneg h0.le (by norm_num [margin]))
        nlinarith
      have k2 : (1 + eps) * ((1 + eps) * (1 + eps)) ≤ (1 + margin / 2) * (1 - eps) := by norm_num [eps, margin]
      have k3 : 0 ≤ α * (a + b) := mul_nonneg h0.le hab
      calc (1 + eps) * ((1 + eps) * (α * ((1 + eps) * (a + b))))
          = (1 + eps) * ((1 + eps) * (1 + eps)) * (α * (a + b)) := by ring
        _ ≤ (1 + margin / 2) * (1 - eps) * (α * (a + b)) := mul_le_mul_of_nonneg_right k2 k3
        _ = α * (a + b) * (1 + margin / 2) * (1 - eps) := by ring
        _ ≤ o * (1 + α) * (1 - eps) := mul_le_mul_of_nonneg_right k1 he.le
        _ = _ := by ring
  · have hab : α * (1 + margin) * a ≤ b := by
      have : α * (1 + margin) * a ≤ α * (1 + margin) * ((a : ℚ) + b - o) :=
        mul_le_mul_of_nonneg_left (by linarith) (mul_nonneg h0.le (by norm_num [margin]))
      linarith
    by_cases hb2 : b < 2 ^ 63
    · apply f64_ceil_le _ _ hb2
      · simp only [f64Ops]
        push_cast
        exact rnd53_nonneg (mul_nonneg h0.le na)
      · simp only [f64Ops]
        push_cast
        have s2 := rnd53_mul_le h0.le na le_rfl ea
        refine s2.trans (le_trans ?_ hab)
        have : (1 + eps) * (1 + eps) ≤ 1 + margin := by norm_num [eps, margin]
        calc (1 + eps) * (α * ((1 + eps) * a)) = (1 + eps) * (1 + eps) * (α * a) := by ring
          _ ≤ (1 + margin) * (α * a) := mul_le_mul_of_nonneg_right this (by positivity)
          _ = _ := by ring
    · exfalso
      have : (b : ℚ) ≤ 2 ^ 62 := by
        have : α * b ≤ a := by
          have : α * (1 + margin) * b ≤ α * (1 + margin) * ((a : ℚ) + b - o) :=
            mul_le_mul_of_nonneg_left (by linarith) (mul_nonneg h0.le (by norm_num [margin]))
          have : α * b ≤ α * (1 + margin) * b := by
            have := mul_nonneg (mul_nonneg h0.le (show (0 : ℚ) ≤ margin by norm_num [margin])) hb0
            linarith
          linarith
        have : (b : ℚ) ≤ a / α := by rw [le_div_iff₀ h0]; linarith
        linarith
      have : b ≤ 2 ^ 62 := by exact_mod_cast this
      omega
  · have hab : α * (1 + margin) * b ≤ a := by
      have : α * (1 + margin) * b ≤ α * (1 + margin) * ((a : ℚ) + b - o) :=
        mul_le_mul_of_nonneg_left (by linarith) (mul_nonneg h0.le (by norm_num [margin]))
      linarith
    apply f64_le_floor
    · simp only [f64Ops]
      push_cast
      have s := le_rnd53_div (mul_nonneg he.le ha0) h0 la le_rfl
      refine le_trans ?_ s
      rw [← mul_div_assoc, le_div_iff₀ h0]
      have k : 1 ≤ (1 - eps) * (1 - eps) * (1 + margin) := by norm_num [eps, margin]
      have k3 : 0 ≤ b * α := by positivity
      calc (b : ℚ) * α ≤ (1 - eps) * (1 - eps) * (1 + margin) * (b * α) := le_mul_of_one_le_left k3 k
        _ = (1 - eps) * (1 - eps) * (α * (1 + margin) * b) := by ring
        _ ≤ (1 - eps) * (1 - eps) * a := mul_le_mul_of_nonneg_left hab (by norm_num [eps])
        _ = _ := by ring
    · simp only [f64Ops]
      push_cast
      have s := rnd53_div_le na h0 ea (le_refl α)
      refine lt_of_le_of_lt s ?_
      have : (1 + eps) * ((1 + eps) * a / α) = (1 + eps) * (1 + eps) * (a / α) := by ring
      rw [this]
      have k : (1 + eps) * (1 + eps) * (2 ^ 62) < 2 ^ 63 := by norm_num [eps]
      exact lt_of_le_of_lt (mul_le_mul_of_nonneg_left hr (by norm_num [eps])) k

include h0 h1 ha' hb' hoa hob in
theorem f64_dice (hr : (2 - α) / α * (a : ℚ) ≤ 2 ^ 62) (h : α * (1 + margin) * ((a : ℚ) + b) ≤ 2 * o) :
    let M := diceMetric (f64Ops oob)
    M.threshold α a b ≤ o ∧ M.minY α a ≤ b ∧ (b : Int) ≤ M.maxY α a := by
  have ho2 : o < 2 ^ 63 := lt_of_le_of_lt hoa (ha'.trans (by norm_num))
  have hb2 : b < 2 ^ 63 := hb'.trans (by norm_num)
  have hoa2 : (o : ℚ) ≤ a := by exact_mod_cast hoa
  have hob2 : (o : ℚ) ≤ b := by exact_mod_cast hob
  have ha0 : (0 : ℚ) ≤ a := by positivity
  have hb0 : (0 : ℚ) ≤ b := by positivity
  have ho0 : (0 : ℚ) ≤ o := by positivity
  have ea := rnd53_upper ha0
  have la := rnd53_lower ha0
  have na := rnd53_nonneg ha0
  have he : (0 : ℚ) < 1 - eps := by norm_num [eps]
  have h2 : (0 : ℚ) < 2 - α := by linarith
  have e2 := rnd53_upper h2.le
  have l2 := rnd53_lower h2.le
  have n2 := rnd53_nonneg h2.le
  have p2 : 0 < rnd53 (2 - α) := lt_of_lt_of_le (mul_pos he h2) l2
  have hm : (0 : ℚ) ≤ α * margin := mul_nonneg h0.le (by norm_num [margin])
  simp only [diceMetric]
  refine ⟨?_, ?_, ?_⟩
  · apply f64_ceil_le _ _ ho2
    · simp only [f64Ops]
      push_cast
      rw [rnd53_one, rnd53_two, rnd53_half]
      exact rnd53_nonneg (mul_nonneg (rnd53_nonneg (by positivity)) (rnd53_nonneg (by positivity)))
    · simp only [f64Ops]
      push_cast
      rw [rnd53_one, rnd53_two, rnd53_half]
      have hab : (0 : ℚ) ≤ a + b := by positivity
      have s1 := rnd53_upper hab
      have s2 := rnd53_upper (show (0 : ℚ) ≤ 1 / 2 * α by positivity)
      have s3 := rnd53_mul_le (rnd53_nonneg (show (0 : ℚ) ≤ 1 / 2 * α by positivity)) (rnd53_nonneg hab) s2 s1
      refine s3.trans ?_
      have k2 : (1 + eps) * ((1 + eps) * (1 + eps)) ≤ 1 + margin := by norm_num [eps, margin]
      calc (1 + eps) * ((1 + eps) * (1 / 2 * α) * ((1 + eps) * (a + b)))
          = (1 + eps) * ((1 + eps) * (1 + eps)) * (α * (a + b) / 2) := by ring
        _ ≤ (1 + margin) * (α * (a + b) / 2) := mul_le_mul_of_nonneg_right k2 (by positivity)
        _ ≤ o := by linarith
  · apply f64_ceil_le _ _ hb2
    · simp only [f64Ops]
      push_cast
      rw [rnd53_two]
      exact rnd53_nonneg (mul_nonneg (rnd53_nonneg (div_nonneg h0.le n2)) na)
    · simp only [f64Ops]
      push_cast
      rw [rnd53_two]
      have s1 := rnd53_div_le h0.le (mul_pos he h2) (le_refl α) l2
      have s2 := rnd53_mul_le (rnd53_nonneg (div_nonneg h0.le n2)) na s1 ea
      refine s2.trans ?_
      have key : α * (1 + margin) * a ≤ b * (2 - α) := by nlinarith
      have k2 : (1 + eps) * ((1 + eps) * (1 + eps)) ≤ (1 + margin) * (1 - eps) := by norm_num [eps, margin]
      have e : (1 + eps) * ((1 + eps) * (α / ((1 - eps) * (2 - α))) * ((1 + eps) * a))
          = (1 + eps) * ((1 + eps) * (1 + eps)) * (α * a) / ((1 - eps) * (2 - α)) := by ring
      rw [e, div_le_iff₀ (mul_pos he h2)]
      calc (1 + eps) * ((1 + eps) * (1 + eps)) * (α * a) ≤ (1 + margin) * (1 - eps) * (α * a) :=
            mul_le_mul_of_nonneg_right k2 (by positivity)
        _ = α * (1 + margin) * a * (1 - eps) := by ring
        _ ≤ b * (2 - α) * (1 - eps) := mul_le_mul_of_nonneg_right key he.le
        _ = _ := by ring
  · have key : b * (α * (1 + margin)) ≤ (2 - α) * a := by nlinarith
    apply f64_le_floor
    · simp only [f64Ops]
      push_cast
      rw [rnd53_two]
      have s1 := le_rnd53_div (mul_nonneg he.le h2.le) h0 l2 (le_refl α)
      have s2 := le_rnd53_mul (mul_nonneg he.le (div_nonneg (mul_nonneg he.le h2.le) h0.le)) (mul_nonneg he.le ha0) s1 la
      refine le_trans ?_ s2
      have e : (1 - eps) * ((1 - eps) * ((1 - eps) * (2 - α) / α) * ((1 - eps) * a))
          = (1 - eps) ^ 4 * ((2 - α) * a) / α := by ring
      rw [e, le_div_iff₀ h0]
      have k : 1 ≤ (1 - eps) ^ 4 * (1 + margin) := by norm_num [eps, margin]
      calc (b : ℚ) * α ≤ (1 - eps) ^ 4 * (1 + margin) * (b * α) := le_mul_of_one_le_left (by positivity) k
        _ = (1 - eps) ^ 4 * (b * (α * (1 + margin))) := by ring
        _ ≤ _ := mul_le_mul_of_nonneg_left key (by norm_num [eps])
    · simp only [f64Ops]
      push_cast
      rw [rnd53_two]
      have s1 := rnd53_div_le n2 h0 e2 (le_refl α)
      have s2 := rnd53_mul_le (rnd53_nonneg (div_nonneg n2 h0.le)) na s1 ea
      refine lt_of_le_of_lt s2 ?_
      have e : (1 + eps) * ((1 + eps) * ((1 + eps) * (2 - α) / α) * ((1 + eps) * a))
          = (1 + eps) ^ 4 * ((2 - α) / α * a) := by ring
      rw [e]
      have k : (1 + eps) ^ 4 * (2 ^ 62) < 2 ^ 63 := by norm_num [eps]
      exact lt_of_le_of_lt (mul_le_mul_of_nonneg_left hr (by norm_num [eps])) k

include h0 ha' hb' hoa hob in
theorem f64_overlap (hb3 : 1 ≤ b ∧ b ≤ 32767) (h : α * (1 + margin) * min (a : ℚ) b ≤ o) :
    let M := overlapMetric (f64Ops oob)
    M.threshold α a b ≤ o ∧ M.minY α a ≤ b ∧ (b : Int) ≤ M.maxY α a := by
  have ho2 : o < 2 ^ 63 := lt_of_le_of_lt hoa (ha'.trans (by norm_num))
  have ha0 : (0 : ℚ) ≤ a := by positivity
  have hb0 : (0 : ℚ) ≤ b := by positivity
  have nn : 0 ≤ min (rnd53 a) (rnd53 b) := le_min (rnd53_nonneg ha0) (rnd53_nonneg hb0)
  have up : min (rnd53 a) (rnd53 b) ≤ (1 + eps) * min (a : ℚ) b := by
    rcases le_total (a : ℚ) b with hab | hab
    · rw [min_eq_left hab]; exact (min_le_left _ _).trans (rnd53_upper ha0)
    · rw [min_eq_right hab]; exact (min_le_right _ _).trans (rnd53_upper hb0)
  simp only [overlapMetric]
  refine ⟨?_, ?_, ?_⟩
  · apply f64_ceil_le _ _ ho2
    · simp only [f64Ops]
      push_cast
      exact rnd53_nonneg (mul_nonneg h0.le nn)
    · simp only [f64Ops]
      push_cast
      have s := rnd53_mul_le h0.le nn (le_refl α) up
      refine s.trans (le_trans ?_ h)
      have k2 : (1 + eps) * (1 + eps) ≤ 1 + margin := by norm_num [eps, margin]
      have k3 : 0 ≤ α * min (a : ℚ) b := mul_nonneg h0.le (le_min ha0 hb0)
      calc (1 + eps) * (α * ((1 + eps) * min (a : ℚ) b)) = (1 + eps) * (1 + eps) * (α * min (a : ℚ) b) := by ring
        _ ≤ (1 + margin) * (α * min (a : ℚ) b) := mul_le_mul_of_nonneg_right k2 k3
        _ = _ := by ring
  · omega
  · omega

/-- The float64 square root of a number ≥ 1 is not much too large. -/
theorem sqrt53_upper {q : ℚ} (hq : 1 ≤ q) : 0 ≤ sqrt53 q ∧ sqrt53 q ^ 2 ≤ ((1 + eps) ^ 2) ^ 2 * q := by
  unfold sqrt53
  rw [if_neg (by linarith)]
  simp only
  obtain ⟨N, hN⟩ : ∃ N : ℚ, ((4 ^ 64 : Nat) : ℚ) = N := ⟨_, rfl⟩
  have hNv : N = (2 ^ 64) ^ 2 := by rw [← hN]; norm_num
  rw [hN]
  obtain ⟨r, hr⟩ : ∃ r, Nat.sqrt ⌊q * N⌋.toNat = r := ⟨_, rfl⟩
  rw [hr]
  have hfl : (0 : ℚ) ≤ q * N := by rw [hNv]; positivity
  have h1 : (r : ℚ) * r ≤ q * N := by
    have h2 : r * r ≤ ⌊q * N⌋.toNat := by rw [← hr]; exact Nat.sqrt_le _
    have h3 : ((⌊q * N⌋.toNat : Nat) : ℚ) ≤ q * N := by
      have : ((⌊q * N⌋.toNat : Nat) : Int) = ⌊q * N⌋ := Int.toNat_of_nonneg (Int.floor_nonneg.2 hfl)
      calc ((⌊q * N⌋.toNat : Nat) : ℚ) = (((⌊q * N⌋.toNat : Nat) : Int) : ℚ) := (Int.cast_natCast _).symm
        _ = (⌊q * N⌋ : ℚ) := by rw [this]
        _ ≤ _ := Int.floor_le _
    exact le_trans (by exact_mod_cast h2) h3
  obtain ⟨t, ht, ht2⟩ : ∃ t : ℚ, (if (r : ℚ) * r = q * N then (0 : ℚ) else 1 / 2) = t ∧ 0 ≤ t ∧ t ≤ 1 / 2 := by
    refine ⟨_, rfl, ?_⟩
    split_ifs <;> norm_num
  rw [ht]
  have hD : ((2 ^ 64 : Nat) : ℚ) = 2 ^ 64 := by norm_num
  rw [hD]
  have hx0 : (0 : ℚ) ≤ (r + t) / 2 ^ 64 := by
    have : (0 : ℚ) ≤ r := by positivity
    have := ht2.1
    positivity
  refine ⟨rnd53_nonneg hx0, ?_⟩
  have h4 := rnd53_upper hx0
  have h5 : ((r + t) / 2 ^ 64) ^ 2 ≤ (1 + eps) ^ 2 * q := by
    rw [div_pow, div_le_iff₀ (by positivity)]
    rw [hNv] at h1
    -- (r + 1/2)^2 = r^2 + r + 1/4 and r ≤ q N
    have hr0 : (0 : ℚ) ≤ r := by positivity
    have hr1 : (r : ℚ) ≤ 2 ^ 64 * q := by
      by_contra hc
      rw [not_le] at hc
      have : (2 ^ 64 * q) * (2 ^ 64 * q) < r * r := mul_lt_mul'' hc hc (by positivity) (by positivity)
      have : q * (2 ^ 64) ^ 2 ≤ (2 ^ 64 * q) * (2 ^ 64 * q) := by nlinarith
      linarith
    have h6 : ((r : ℚ) + t) ^ 2 ≤ q * (2 ^ 64) ^ 2 + 2 ^ 64 * q + q := by nlinarith [ht2.1, ht2.2]
    refine h6.trans ?_
    have k : (1 : ℚ) * (2 ^ 64) ^ 2 + 2 ^ 64 + 1 ≤ (1 + eps) ^ 2 * (2 ^ 64) ^ 2 := by norm_num [eps]
    calc q * (2 ^ 64) ^ 2 + 2 ^ 64 * q + q = q * (1 * (2 ^ 64) ^ 2 + 2 ^ 64 + 1) := by ring
      _ ≤ q * ((1 + eps) ^ 2 * (2 ^ 64) ^ 2) := mul_le_mul_of_nonneg_left k (by linarith)
      _ = _ := by ring
  calc rnd53 ((r + t) / 2 ^ 64) ^ 2 ≤ ((1 + eps) * ((r + t) / 2 ^ 64)) ^ 2 :=
        pow_le_pow_left₀ (rnd53_nonneg hx0) h4 2
    _ = (1 + eps) ^ 2 * ((r + t) / 2 ^ 64) ^ 2 := by ring
    _ ≤ (1 + eps) ^ 2 * ((1 + eps) ^ 2 * q) := mul_le_mul_of_nonneg_left h5 (by norm_num [eps])
    _ = _ := by ring

include h0 ha hb ha' hb' hoa hob in
theorem f64_cosine (hr : (a : ℚ) / (α * α) ≤ 2 ^ 62) (h : (α * (1 + margin)) ^ 2 * ((a : ℚ) * b) ≤ (o : ℚ) ^ 2) :
    let M := cosineMetric (f64Ops oob)
    M.threshold α a b ≤ o ∧ M.minY α a ≤ b ∧ (b : Int) ≤ M.maxY α a := by
  have ho2 : o < 2 ^ 63 := lt_of_le_of_lt hoa (ha'.trans (by norm_num))
  have hb2 : b < 2 ^ 63 := hb'.trans (by norm_num)
  have hoa2 : (o : ℚ) ≤ a := by exact_mod_cast hoa
  have hob2 : (o : ℚ) ≤ b := by exact_mod_cast hob
  have ha1 : (1 : ℚ) ≤ a := by exact_mod_cast ha
  have hb1 : (1 : ℚ) ≤ b := by exact_mod_cast hb
  have ha0 : (0 : ℚ) ≤ a := by positivity
  have hb0 : (0 : ℚ) ≤ b := by positivity
  have ho0 : (0 : ℚ) ≤ o := by positivity
  have hab1 : (1 : ℚ) ≤ a * b := by nlinarith
  have ea := rnd53_upper ha0
  have la := rnd53_lower ha0
  have na := rnd53_nonneg ha0
  have he : (0 : ℚ) < 1 - eps := by norm_num [eps]
  have haa : 0 < α * α := mul_pos h0 h0
  have eaa := rnd53_upper haa.le
  have laa := rnd53_lower haa.le
  have naa := rnd53_nonneg haa.le
  have paa : 0 < rnd53 (α * α) := lt_of_lt_of_le (mul_pos he haa) laa
  have hm : (0 : ℚ) ≤ margin := by norm_num [margin]
  simp only [cosineMetric]
  refine ⟨?_, ?_, ?_⟩
  · -- the product of cardinalities, rounded
    have hp : 1 ≤ rnd53 ((a : ℚ) * b) := by
      have : (1 : ℚ) ≤ 1 := le_rfl
      by_cases h2 : (a : ℚ) * b < 2
      · have : (a : ℚ) * b = 1 := by
          have : a * b < 2 := by exact_mod_cast h2
          have h3 : 1 ≤ a * b := by exact_mod_cast hab1
          have : a * b = 1 := by omega
          exact_mod_cast this
        rw [this, rnd53_one]
      · refine le_trans ?_ (rnd53_lower (by linarith : (0 : ℚ) ≤ a * b))
        rw [not_lt] at h2
        have : (1 : ℚ) ≤ (1 - eps) * 2 := by norm_num [eps]
        nlinarith
    obtain ⟨s0, s1⟩ := sqrt53_upper hp
    have s2 := rnd53_upper (show (0 : ℚ) ≤ a * b by positivity)
    apply f64_ceil_le _ _ ho2
    · simp only [f64Ops]
      push_cast
      exact rnd53_nonneg (mul_nonneg h0.le s0)
    · simp only [f64Ops]
      push_cast
      have s3 := rnd53_upper (mul_nonneg h0.le s0)
      refine s3.trans ?_
      apply le_of_sq_le_sq _ ho0
      have k : (1 + eps) ^ 2 * (((1 + eps) ^ 2) ^ 2 * (1 + eps)) ≤ (1 + margin) ^ 2 := by norm_num [eps, margin]
      calc ((1 + eps) * (α * sqrt53 (rnd53 ((a : ℚ) * b)))) ^ 2
          = (1 + eps) ^ 2 * α ^ 2 * (sqrt53 (rnd53 ((a : ℚ) * b))) ^ 2 := by ring
        _ ≤ (1 + eps) ^ 2 * α ^ 2 * (((1 + eps) ^ 2) ^ 2 * rnd53 ((a : ℚ) * b)) :=
            mul_le_mul_of_nonneg_left s1 (by positivity)
        _ ≤ (1 + eps) ^ 2 * α ^ 2 * (((1 + eps) ^ 2) ^ 2 * ((1 + eps) * (a * b))) :=
            mul_le_mul_of_nonneg_left (mul_le_mul_of_nonneg_left s2 (by positivity)) (by positivity)
        _ = (1 + eps) ^ 2 * (((1 + eps) ^ 2) ^ 2 * (1 + eps)) * (α ^ 2 * (a * b)) := by ring
        _ ≤ (1 + margin) ^ 2 * (α ^ 2 * (a * b)) := mul_le_mul_of_nonneg_right k (by positivity)
        _ = (α * (1 + margin)) ^ 2 * (a * b) := by ring
        _ ≤ _ := h
  · have key : (α * (1 + margin)) ^ 2 * a ≤ b := by
      have : (α * (1 + margin)) ^ 2 * a * b ≤ b * b := by nlinarith
      exact le_of_mul_le_mul_right this (by linarith)
    apply f64_ceil_le _ _ hb2
    · simp only [f64Ops]
      push_cast
      exact rnd53_nonneg (mul_nonneg naa na)
    · simp only [f64Ops]
      push_cast
      have s := rnd53_mul_le naa na eaa ea
      refine s.trans (le_trans ?_ key)
      have k : (1 + eps) ^ 3 ≤ (1 + margin) ^ 2 := by norm_num [eps, margin]
      calc (1 + eps) * ((1 + eps) * (α * α) * ((1 + eps) * a)) = (1 + eps) ^ 3 * (α * α * a) := by ring
        _ ≤ (1 + margin) ^ 2 * (α * α * a) := mul_le_mul_of_nonneg_right k (by positivity)
        _ = _ := by ring
  · have key : (α * (1 + margin)) ^ 2 * b ≤ a := by
      have : (α * (1 + margin)) ^ 2 * b * a ≤ a * a := by nlinarith
      exact le_of_mul_le_mul_right this (by linarith)
    apply f64_le_floor
    · simp only [f64Ops]
      push_cast
      have s := le_rnd53_div (mul_nonneg he.le ha0) paa la eaa
      refine le_trans ?_ s
      have e : (1 - eps) * ((1 - eps) * a / ((1 + eps) * (α * α))) = (1 - eps) ^ 2 * a / ((1 + eps) * (α * α)) := by
        ring
      rw [e, le_div_iff₀ (mul_pos (by norm_num [eps]) haa)]
      have k : 1 + eps ≤ (1 - eps) ^ 2 * (1 + margin) ^ 2 := by norm_num [eps, margin]
      calc (b : ℚ) * ((1 + eps) * (α * α)) = (1 + eps) * (b * (α * α)) := by ring
        _ ≤ (1 - eps) ^ 2 * (1 + margin) ^ 2 * (b * (α * α)) := mul_le_mul_of_nonneg_right k (by positivity)
        _ = (1 - eps) ^ 2 * ((α * (1 + margin)) ^ 2 * b) := by ring
        _ ≤ _ := mul_le_mul_of_nonneg_left key (by positivity)
    · simp only [f64Ops]
      push_cast
      have s := rnd53_div_le na (mul_pos he haa) ea laa
      refine lt_of_le_of_lt s ?_
      have e : (1 + eps) * ((1 + eps) * a / ((1 - eps) * (α * α)))
          = (1 + eps) ^ 2 / (1 - eps) * (a / (α * α)) := by
        rw [mul_div_mul_comm]; ring
      rw [e]
      have k : (1 + eps) ^ 2 / (1 - eps) * (2 ^ 62) < 2 ^ 63 := by norm_num [eps]
      exact lt_of_le_of_lt (mul_le_mul_of_nonneg_left hr (by norm_num [eps])) k

end
end Verif
