import Verif.Proofs.Float
/- Monotonicity and exactness of float64 rounding. -/
namespace Verif
open Spec

theorem twoPow_pos (e : Int) : 0 < twoPow e := by rw [twoPow_eq]; positivity

theorem twoPow_le {e f : Int} : twoPow e ≤ twoPow f ↔ e ≤ f := by
  rw [twoPow_eq, twoPow_eq]; exact zpow_le_zpow_iff_right₀ (by norm_num)

theorem twoPow_lt {e f : Int} : twoPow e < twoPow f ↔ e < f := by
  rw [twoPow_eq, twoPow_eq]; exact zpow_lt_zpow_iff_right₀ (by norm_num)

theorem twoPow_add (e f : Int) : twoPow (e + f) = twoPow e * twoPow f := by
  rw [twoPow_eq, twoPow_eq, twoPow_eq, zpow_add₀ (by norm_num)]

theorem twoPow_nat (n : Nat) : twoPow n = ((2 ^ n : Nat) : ℚ) := by rw [twoPow_eq]; simp

theorem lt_exponent {q : ℚ} (hq : q ≠ 0) : |q| < twoPow (exponent q + 1) := by
  have hn0 : q.num.natAbs ≠ 0 := by simpa using hq
  have h1 : q.num.natAbs < 2 ^ (Nat.log2 q.num.natAbs + 1) := Nat.lt_log2_self
  have h2 : 2 ^ (Nat.log2 q.den) ≤ q.den := Nat.log2_self_le q.den_nz
  have e : |q| = (q.num.natAbs : ℚ) / q.den := by
    conv_lhs => rw [← Rat.num_div_den q]
    rw [abs_div, Nat.abs_cast]
    congr 1
    rw [Nat.cast_natAbs]; simp
  have hd : (0 : ℚ) < q.den := by exact_mod_cast q.den_pos
  have key : |q| < twoPow ((Nat.log2 q.num.natAbs : Int) - Nat.log2 q.den + 1) := by
    rw [e, div_lt_iff₀ hd, twoPow_eq]
    have h1' : (q.num.natAbs : ℚ) < 2 ^ (Nat.log2 q.num.natAbs + 1) := by exact_mod_cast h1
    have h2' : (2 : ℚ) ^ (Nat.log2 q.den) ≤ q.den := by exact_mod_cast h2
    refine lt_of_lt_of_le h1' ?_
    have hpos : (0 : ℚ) < 2 ^ ((Nat.log2 q.num.natAbs : Int) - Nat.log2 q.den + 1) := by positivity
    calc (2 : ℚ) ^ (Nat.log2 q.num.natAbs + 1)
        = 2 ^ ((Nat.log2 q.num.natAbs : Int) - Nat.log2 q.den + 1) * 2 ^ (Nat.log2 q.den) := by
          rw [← zpow_natCast (2 : ℚ) (Nat.log2 q.den), ← zpow_add₀ (by norm_num), ← zpow_natCast]
          congr 1
          push_cast; ring
      _ ≤ _ := mul_le_mul_of_nonneg_left h2' hpos.le
  unfold exponent
  simp only
  split
  · exact key
  · rename_i h
    rw [not_le] at h
    rw [sub_add_cancel]
    exact h

theorem roundEven_le {x : ℚ} {n : Int} (h : x ≤ n) : roundEven x ≤ n := by
  have h1 : (⌊x⌋ : ℚ) ≤ x := Int.floor_le x
  have h2 : ⌊x⌋ ≤ n := by exact_mod_cast h1.trans h
  rcases lt_or_eq_of_le h2 with h3 | h3
  · unfold roundEven; simp only; split_ifs <;> omega
  · unfold roundEven
    simp only
    have : x - (⌊x⌋ : ℚ) = 0 := by rw [← h3] at h; linarith
    rw [this, if_pos (by norm_num)]; omega

theorem le_roundEven {x : ℚ} {n : Int} (h : (n : ℚ) ≤ x) : n ≤ roundEven x := by
  have h2 : n ≤ ⌊x⌋ := Int.le_floor.2 h
  unfold roundEven; simp only; split_ifs <;> omega

theorem roundEven_mono {x y : ℚ} (h : x ≤ y) : roundEven x ≤ roundEven y := by
  have h1 : ⌊x⌋ ≤ ⌊y⌋ := Int.floor_mono h
  rcases lt_or_eq_of_le h1 with h2 | h2
  · refine (roundEven_le (n := ⌊x⌋ + 1) ?_).trans ((by omega : ⌊x⌋ + 1 ≤ ⌊y⌋).trans (le_roundEven (Int.floor_le y)))
    push_cast; exact (Int.lt_floor_add_one x).le
  · unfold roundEven
    simp only
    rw [← h2]
    have : x - (⌊x⌋ : ℚ) ≤ y - (⌊x⌋ : ℚ) := by linarith
    generalize x - (⌊x⌋ : ℚ) = dx at this
    generalize y - (⌊x⌋ : ℚ) = dy at this
    split_ifs <;> first | omega | (exfalso; linarith)

theorem roundEven_int (n : Int) : roundEven n = n := le_antisymm (roundEven_le le_rfl) (le_roundEven le_rfl)

/-- Rounding is monotone. -/
theorem rnd53_mono {x y : ℚ} (h0 : 0 ≤ x) (h : x ≤ y) : rnd53 x ≤ rnd53 y := by
  rcases eq_or_lt_of_le h0 with rfl | hx
  · have : rnd53 0 = 0 := by simp [rnd53]
    rw [this]; exact rnd53_nonneg h
  have hy : 0 < y := hx.trans_le h
  have a1 := exponent_le hx.ne'
  have a2 := lt_exponent hx.ne'
  have b1 := exponent_le hy.ne'
  have b2 := lt_exponent hy.ne'
  rw [abs_of_pos hx] at a1 a2
  rw [abs_of_pos hy] at b1 b2
  have he : exponent x < exponent y + 1 := twoPow_lt.1 (a1.trans_lt (h.trans_lt b2))
  unfold rnd53
  rw [if_neg hx.ne', if_neg hy.ne']
  simp only
  rcases lt_or_eq_of_le (Int.lt_add_one_iff.1 he) with h1 | h1
  · have c1 : (roundEven (x / twoPow (exponent x - 52)) : ℚ) ≤ (2 ^ 53 : Int) := by
      have : roundEven (x / twoPow (exponent x - 52)) ≤ 2 ^ 53 := by
        apply roundEven_le
        rw [div_le_iff₀ (twoPow_pos _)]
        have : ((2 ^ 53 : Int) : ℚ) = twoPow 53 := by rw [twoPow_eq]; norm_num
        rw [this, ← twoPow_add]
        refine a2.le.trans (twoPow_le.2 (by omega))
      exact_mod_cast this
    have c2 : ((2 ^ 52 : Int) : ℚ) ≤ (roundEven (y / twoPow (exponent y - 52)) : ℚ) := by
      have : 2 ^ 52 ≤ roundEven (y / twoPow (exponent y - 52)) := by
        apply le_roundEven
        rw [le_div_iff₀ (twoPow_pos _)]
        have : ((2 ^ 52 : Int) : ℚ) = twoPow 52 := by rw [twoPow_eq]; norm_num
        rw [this, ← twoPow_add]
        refine (twoPow_le.2 (by omega)).trans b1
      exact_mod_cast this
    refine (mul_le_mul_of_nonneg_right c1 (twoPow_pos _).le).trans (le_trans ?_ (mul_le_mul_of_nonneg_right c2 (twoPow_pos _).le))
    have e1 : ((2 ^ 53 : Int) : ℚ) = twoPow 53 := by rw [twoPow_eq]; norm_num
    have e2 : ((2 ^ 52 : Int) : ℚ) = twoPow 52 := by rw [twoPow_eq]; norm_num
    rw [e1, e2, ← twoPow_add, ← twoPow_add]
    exact twoPow_le.2 (by omega)
  · rw [h1]
    apply mul_le_mul_of_nonneg_right _ (twoPow_pos _).le
    exact_mod_cast roundEven_mono (div_le_div_of_nonneg_right h (twoPow_pos _).le)

/-- Integers below 2^53 are exact. -/
theorem rnd53_nat {n : Nat} (h : n < 2 ^ 53) : rnd53 n = n := by
  unfold rnd53
  split
  · rename_i h; rw [h]
  · rename_i hq
    simp only
    have h1 := exponent_le hq
    have hn : (0 : ℚ) ≤ n := by positivity
    rw [abs_of_nonneg hn] at h1
    have h2 : exponent (n : ℚ) < 53 := by
      apply twoPow_lt.1
      refine h1.trans_lt ?_
      have : twoPow 53 = ((2 ^ 53 : Nat) : ℚ) := twoPow_nat 53
      rw [this]; exact_mod_cast h
    have h3 : 0 ≤ exponent (n : ℚ) := by
      by_contra hc
      have h4 := lt_exponent hq
      rw [abs_of_nonneg hn] at h4
      have h5 : twoPow (exponent (n : ℚ) + 1) ≤ twoPow 0 := twoPow_le.2 (by omega)
      have : twoPow 0 = 1 := by rw [twoPow_eq]; simp
      rw [this] at h5
      have h6 : (n : ℚ) < 1 := h4.trans_le h5
      have : n < 1 := by exact_mod_cast h6
      apply hq; have : n = 0 := by omega
      rw [this]; rfl
    obtain ⟨k, hk⟩ := Int.eq_ofNat_of_zero_le (show 0 ≤ 52 - exponent (n : ℚ) by omega)
    have hu : twoPow (exponent (n : ℚ) - 52) = 1 / ((2 ^ k : Nat) : ℚ) := by
      have : exponent (n : ℚ) - 52 = -(k : Int) := by omega
      rw [this, twoPow_eq]; simp
    rw [hu]
    have hk0 : ((2 ^ k : Nat) : ℚ) ≠ 0 := by positivity
    have e : (n : ℚ) / (1 / ((2 ^ k : Nat) : ℚ)) = ((n * 2 ^ k : Nat) : Int) := by
      push_cast; field_simp
    rw [e, roundEven_int]
    push_cast
    field_simp

theorem rnd53_le_nat {x : ℚ} {n : Nat} (hn : n < 2 ^ 53) (h0 : 0 ≤ x) (h : x ≤ n) : rnd53 x ≤ n := by
  rw [← rnd53_nat hn]; exact rnd53_mono h0 h

theorem nat_le_rnd53 {x : ℚ} {n : Nat} (hn : n < 2 ^ 53) (h : (n : ℚ) ≤ x) : (n : ℚ) ≤ rnd53 x := by
  have := rnd53_mono (x := n) (y := x) (by positivity) h
  rwa [rnd53_nat hn] at this

theorem rnd53_le_one {x : ℚ} (h0 : 0 ≤ x) (h : x ≤ 1) : rnd53 x ≤ 1 := by
  have := rnd53_le_nat (n := 1) (by norm_num) h0 (by simpa using h)
  simpa using this

theorem one_le_rnd53 {x : ℚ} (h : 1 ≤ x) : 1 ≤ rnd53 x := by
  have := nat_le_rnd53 (n := 1) (x := x) (by norm_num) (by simpa using h)
  simpa using this

theorem rnd53_pos {x : ℚ} (h : 0 < x) : 0 < rnd53 x :=
  lt_of_lt_of_le (mul_pos (by norm_num [eps]) h) (rnd53_lower h.le)

theorem f64_ceil_eq {oob : Int} {x : ℚ} (h0 : 0 ≤ x) (h1 : x ≤ 2 ^ 62) : (f64Ops oob).ceilInt x = ⌈x⌉ := by
  show toInt64 oob ⌈x⌉ = _
  have : ⌈x⌉ ≤ 2 ^ 62 := Int.ceil_le.2 (by push_cast; exact h1)
  exact toInt64_of_range (le_trans (by norm_num) (Int.ceil_nonneg h0)) (lt_of_le_of_lt this (by norm_num))

theorem f64_floor_eq {oob : Int} {x : ℚ} (h0 : 0 ≤ x) (h1 : x ≤ 2 ^ 62) : (f64Ops oob).floorInt x = ⌊x⌋ := by
  show toInt64 oob ⌊x⌋ = _
  have : ⌊x⌋ < 2 ^ 63 := Int.floor_lt.2 (by push_cast; linarith)
  exact toInt64_of_range (le_trans (by norm_num) (Int.floor_nonneg.2 h0)) this

/-- The square root is at least `o` if the argument is at least `o²`. -/
theorem nat_le_sqrt53 {q : ℚ} {o : Nat} (ho : o < 2 ^ 53) (hq : 1 ≤ q) (h : (o : ℚ) * o ≤ q) : (o : ℚ) ≤ sqrt53 q := by
  unfold sqrt53
  rw [if_neg (by linarith)]
  simp only
  apply nat_le_rnd53 ho
  rw [le_div_iff₀ (by positivity)]
  have h1 : o * 2 ^ 64 ≤ Nat.sqrt ⌊q * ((4 ^ 64 : Nat) : ℚ)⌋.toNat := by
    rw [Nat.le_sqrt]
    have : ((o * 2 ^ 64 * (o * 2 ^ 64) : Nat) : Int) ≤ ⌊q * ((4 ^ 64 : Nat) : ℚ)⌋ := by
      apply Int.le_floor.2
      push_cast
      nlinarith
    omega
  have h2 : ((o * 2 ^ 64 : Nat) : ℚ) ≤ (Nat.sqrt ⌊q * ((4 ^ 64 : Nat) : ℚ)⌋.toNat : ℚ) := by exact_mod_cast h1
  have h3 : (o : ℚ) * ((2 ^ 64 : Nat) : ℚ) = ((o * 2 ^ 64 : Nat) : ℚ) := by push_cast; rfl
  rw [h3]
  refine h2.trans ?_
  apply le_add_of_nonneg_right
  split_ifs <;> norm_num

/-- The float64 square root of a number ≥ 1 is not much too small. -/
theorem sqrt53_lower {q : ℚ} (hq : 1 ≤ q) : ((1 - eps) ^ 2) ^ 2 * q ≤ sqrt53 q ^ 2 := by
  unfold sqrt53
  rw [if_neg (by linarith)]
  simp only
  obtain ⟨N, hN⟩ : ∃ N : ℚ, ((4 ^ 64 : Nat) : ℚ) = N := ⟨_, rfl⟩
  have hNv : N = (2 ^ 64) ^ 2 := by rw [← hN]; norm_num
  rw [hN]
  obtain ⟨r, hr⟩ : ∃ r, Nat.sqrt ⌊q * N⌋.toNat = r := ⟨_, rfl⟩
  rw [hr]
  have hfl : (0 : ℚ) ≤ q * N := by rw [hNv]; positivity
  have h1 : q * N < ((r : ℚ) + 1) * (r + 1) := by
    have h2 : ⌊q * N⌋.toNat + 1 ≤ (r + 1) * (r + 1) := by rw [← hr]; exact Nat.succ_le_succ_sqrt _
    have h3 : q * N < ((⌊q * N⌋.toNat : Nat) : ℚ) + 1 := by
      have : ((⌊q * N⌋.toNat : Nat) : Int) = ⌊q * N⌋ := Int.toNat_of_nonneg (Int.floor_nonneg.2 hfl)
      calc q * N < (⌊q * N⌋ : ℚ) + 1 := Int.lt_floor_add_one _
        _ = (((⌊q * N⌋.toNat : Nat) : Int) : ℚ) + 1 := by rw [this]
        _ = _ := by rw [Int.cast_natCast]
    refine h3.trans_le ?_
    exact_mod_cast h2
  obtain ⟨t, ht, ht2⟩ : ∃ t : ℚ, (if (r : ℚ) * r = q * N then (0 : ℚ) else 1 / 2) = t ∧ 0 ≤ t ∧ t ≤ 1 / 2 := by
    refine ⟨_, rfl, ?_⟩
    split_ifs <;> norm_num
  rw [ht]
  have hD : ((2 ^ 64 : Nat) : ℚ) = 2 ^ 64 := by norm_num
  rw [hD]
  have hr0 : (0 : ℚ) ≤ r := by positivity
  have hx0 : (0 : ℚ) ≤ (r + t) / 2 ^ 64 := by
    have := ht2.1
    positivity
  have h4 := rnd53_lower hx0
  -- r + 1 ≥ 2^64 hence r ≥ (1 - eps) (r + 1)
  have hr1 : (2 ^ 64 : ℚ) ≤ r + 1 := by
    by_contra hc
    rw [not_le] at hc
    have : ((r : ℚ) + 1) * (r + 1) < 2 ^ 64 * 2 ^ 64 := mul_lt_mul'' hc hc (by positivity) (by positivity)
    rw [hNv] at h1
    nlinarith
  have hr2 : (1 - eps) * ((r : ℚ) + 1) ≤ r := by
    have : 1 ≤ eps * (2 ^ 64) := by norm_num [eps]
    have : eps * 2 ^ 64 ≤ eps * (r + 1) := mul_le_mul_of_nonneg_left hr1 (by norm_num [eps])
    linarith
  have he0 : (0 : ℚ) ≤ 1 - eps := by norm_num [eps]
  have h5 : (1 - eps) ^ 2 * q ≤ ((r + t) / 2 ^ 64) ^ 2 := by
    rw [div_pow, le_div_iff₀ (by positivity), ← hNv]
    calc (1 - eps) ^ 2 * q * N ≤ (1 - eps) ^ 2 * (((r : ℚ) + 1) * (r + 1)) := by
          rw [mul_assoc]; exact mul_le_mul_of_nonneg_left h1.le (by positivity)
      _ = ((1 - eps) * ((r : ℚ) + 1)) ^ 2 := by ring
      _ ≤ (r : ℚ) ^ 2 := pow_le_pow_left₀ (mul_nonneg he0 (by positivity)) hr2 2
      _ ≤ _ := pow_le_pow_left₀ hr0 (by linarith [ht2.1]) 2
  calc ((1 - eps) ^ 2) ^ 2 * q = (1 - eps) ^ 2 * ((1 - eps) ^ 2 * q) := by ring
    _ ≤ (1 - eps) ^ 2 * ((r + t) / 2 ^ 64) ^ 2 := mul_le_mul_of_nonneg_left h5 (by positivity)
    _ = ((1 - eps) * ((r + t) / 2 ^ 64)) ^ 2 := by ring
    _ ≤ _ := pow_le_pow_left₀ (mul_nonneg he0 hx0) h4 2

end Verif
