import Verif.Proofs.FloatMono
/- What the metrics compute in float64 arithmetic, for queries with at most 65535 and documents with at most 32767
terms. -/
namespace Verif
open Spec

theorem f64_ofNat {oob : Int} {n : Nat} (h : n < 2 ^ 53) : (f64Ops oob).ofInt (n : Int) = n := by
  show rnd53 (((n : Nat) : Int) : ℚ) = n
  rw [Int.cast_natCast, rnd53_nat h]

/-- The score is twice rounded from the quotient `r`. -/
theorem score_round {r : ℚ} (h0 : 0 ≤ r) (h1 : r ≤ 1) :
    rnd53 (1 - rnd53 (1 - r)) ≤ 1 ∧ |rnd53 (1 - rnd53 (1 - r)) - r| ≤ 2 * eps := by
  have d0 : 0 ≤ rnd53 (1 - r) := rnd53_nonneg (by linarith)
  have d1 : rnd53 (1 - r) ≤ 1 := rnd53_le_one (by linarith) (by linarith)
  have e1 := rnd53_err (1 - r)
  have e2 := rnd53_err (1 - rnd53 (1 - r))
  have he : (0 : ℚ) ≤ eps := by norm_num [eps]
  have k1 : eps * |1 - r| ≤ eps := by
    rw [abs_of_nonneg (by linarith)]
    nlinarith
  have k2 : eps * |1 - rnd53 (1 - r)| ≤ eps := by
    rw [abs_of_nonneg (by linarith)]
    nlinarith
  refine ⟨rnd53_le_one (by linarith) (by linarith), ?_⟩
  rw [abs_le] at e1 e2 ⊢
  constructor <;> linarith [e1.1, e1.2, e2.1, e2.2]

section
variable {oob : Int} {α : ℚ} {a b o : Nat}

/-! ### Equations -/

theorem f64_score_jaccard (ha : a ≤ 65535) (hb : b ≤ 32767) (hoa : o ≤ a) :
    metricScore (f64Ops oob) (jaccardMetric (f64Ops oob)) o a b
      = rnd53 (1 - rnd53 (1 - rnd53 ((o : ℚ) / ((a + b - o : Nat) : ℚ)))) := by
  have e : ((a : Int) + b - o) = ((a + b - o : Nat) : Int) := by omega
  simp only [metricScore, jaccardMetric]
  rw [e, f64_ofNat (n := o) (by omega), f64_ofNat (n := a + b - o) (by omega)]
  rw [show (1 : Int) = ((1 : Nat) : Int) from rfl, f64_ofNat (n := 1) (by norm_num)]
  simp [f64Ops]

theorem f64_score_dice (ha : a ≤ 65535) (hb : b ≤ 32767) (hoa : o ≤ a) :
    metricScore (f64Ops oob) (diceMetric (f64Ops oob)) o a b
      = rnd53 (1 - rnd53 (1 - rnd53 (((2 * o : Nat) : ℚ) / ((a + b : Nat) : ℚ)))) := by
  have e : ((a : Int) + b) = ((a + b : Nat) : Int) := by omega
  have e2 : 2 * (o : Int) = ((2 * o : Nat) : Int) := by omega
  simp only [metricScore, diceMetric]
  rw [e, e2, f64_ofNat (n := 2 * o) (by omega), f64_ofNat (n := a + b) (by omega)]
  rw [show (1 : Int) = ((1 : Nat) : Int) from rfl, f64_ofNat (n := 1) (by norm_num)]
  simp [f64Ops]

theorem f64_score_cosine (ha : a ≤ 65535) (hb : b ≤ 32767) (hoa : o ≤ a) :
    metricScore (f64Ops oob) (cosineMetric (f64Ops oob)) o a b
      = rnd53 (1 - rnd53 (1 - rnd53 ((o : ℚ) / sqrt53 ((a * b : Nat) : ℚ)))) := by
  have e : ((a : Int) * b) = ((a * b : Nat) : Int) := by push_cast; rfl
  have hab : a * b < 2 ^ 53 := lt_of_le_of_lt (Nat.mul_le_mul ha hb) (by norm_num)
  simp only [metricScore, cosineMetric]
  rw [e, f64_ofNat (n := o) (by omega), f64_ofNat hab]
  rw [show (1 : Int) = ((1 : Nat) : Int) from rfl, f64_ofNat (n := 1) (by norm_num)]
  simp [f64Ops]

theorem f64_score_overlap (ha : a ≤ 65535) (hb : b ≤ 32767) (hoa : o ≤ a) :
    metricScore (f64Ops oob) (overlapMetric (f64Ops oob)) o a b
      = rnd53 (1 - rnd53 (1 - rnd53 ((o : ℚ) / ((min a b : Nat) : ℚ)))) := by
  simp only [metricScore, overlapMetric]
  rw [f64_ofNat (n := o) (by omega), f64_ofNat (n := a) (by omega), f64_ofNat (n := b) (by omega)]
  rw [show (1 : Int) = ((1 : Nat) : Int) from rfl, f64_ofNat (n := 1) (by norm_num)]
  simp [f64Ops]

theorem f64_thr_jaccard (h0 : 0 < α) (h1 : α ≤ 1) (ha : a ≤ 65535) (hb : b ≤ 32767) :
    (jaccardMetric (f64Ops oob)).threshold α a b
      = ⌈rnd53 (rnd53 (α * ((a + b : Nat) : ℚ)) / rnd53 (1 + α))⌉ := by
  have e : ((a : Int) + b) = ((a + b : Nat) : Int) := by omega
  simp only [jaccardMetric]
  rw [e, f64_ofNat (n := a + b) (by omega), show (1 : Int) = ((1 : Nat) : Int) from rfl, f64_ofNat (n := 1) (by norm_num)]
  have hn : (0 : ℚ) ≤ ((a + b : Nat) : ℚ) := by positivity
  have x0 : 0 ≤ rnd53 (α * ((a + b : Nat) : ℚ)) := rnd53_nonneg (by positivity)
  have x1 : rnd53 (α * ((a + b : Nat) : ℚ)) ≤ ((a + b : Nat) : ℚ) :=
    rnd53_le_nat (by omega) (by positivity) (by nlinarith)
  have y1 : 1 ≤ rnd53 (1 + α) := one_le_rnd53 (by linarith)
  have z1 : rnd53 (α * ((a + b : Nat) : ℚ)) / rnd53 (1 + α) ≤ ((a + b : Nat) : ℚ) :=
    (div_le_self x0 y1).trans x1
  have z2 : rnd53 (rnd53 (α * ((a + b : Nat) : ℚ)) / rnd53 (1 + α)) ≤ ((a + b : Nat) : ℚ) :=
    rnd53_le_nat (by omega) (div_nonneg x0 (by linarith)) z1
  have z3 : ((a + b : Nat) : ℚ) ≤ 2 ^ 62 := by
    have : a + b ≤ 2 ^ 62 := by omega
    exact_mod_cast this
  rw [← f64_ceil_eq (oob := oob) (rnd53_nonneg (div_nonneg x0 (by linarith))) (z2.trans z3)]
  simp [f64Ops]

theorem f64_thr_dice (h0 : 0 < α) (h1 : α ≤ 1) (ha : a ≤ 65535) (hb : b ≤ 32767) :
    (diceMetric (f64Ops oob)).threshold α a b = ⌈rnd53 (rnd53 (1 / 2 * α) * ((a + b : Nat) : ℚ))⌉ := by
  have e : ((a : Int) + b) = ((a + b : Nat) : Int) := by omega
  simp only [diceMetric]
  rw [e, f64_ofNat (n := a + b) (by omega), show (1 : Int) = ((1 : Nat) : Int) from rfl, f64_ofNat (n := 1) (by norm_num),
    show (2 : Int) = ((2 : Nat) : Int) from rfl, f64_ofNat (n := 2) (by norm_num)]
  have x0 : 0 ≤ rnd53 (1 / 2 * α) := rnd53_nonneg (by positivity)
  have x1 : rnd53 (1 / 2 * α) ≤ 1 := rnd53_le_one (by positivity) (by linarith)
  have hn : (0 : ℚ) ≤ ((a + b : Nat) : ℚ) := by positivity
  have z2 : rnd53 (rnd53 (1 / 2 * α) * ((a + b : Nat) : ℚ)) ≤ ((a + b : Nat) : ℚ) :=
    rnd53_le_nat (by omega) (by positivity) (by nlinarith)
  have z3 : ((a + b : Nat) : ℚ) ≤ 2 ^ 62 := by
    have : a + b ≤ 2 ^ 62 := by omega
    exact_mod_cast this
  rw [← f64_ceil_eq (oob := oob) (rnd53_nonneg (by positivity)) (z2.trans z3)]
  simp only [f64Ops, Nat.cast_one, Nat.cast_ofNat, rnd53_half]

theorem f64_thr_overlap (h0 : 0 < α) (h1 : α ≤ 1) (ha : a ≤ 65535) (hb : b ≤ 32767) :
    (overlapMetric (f64Ops oob)).threshold α a b = ⌈rnd53 (α * ((min a b : Nat) : ℚ))⌉ := by
  simp only [overlapMetric]
  rw [f64_ofNat (n := a) (by omega), f64_ofNat (n := b) (by omega)]
  have hn : (0 : ℚ) ≤ ((min a b : Nat) : ℚ) := by positivity
  have z2 : rnd53 (α * ((min a b : Nat) : ℚ)) ≤ ((min a b : Nat) : ℚ) :=
    rnd53_le_nat (by omega) (by positivity) (by nlinarith)
  have z3 : ((min a b : Nat) : ℚ) ≤ 2 ^ 62 := by
    have : min a b ≤ 2 ^ 62 := by omega
    exact_mod_cast this
  rw [← f64_ceil_eq (oob := oob) (rnd53_nonneg (by positivity)) (z2.trans z3)]
  simp [f64Ops]

/-- The square root of the product of the cardinalities. -/
theorem sqrt53_ab (ha1 : 1 ≤ a) (hb1 : 1 ≤ b) (ha : a ≤ 65535) (hb : b ≤ 32767) :
    1 ≤ sqrt53 ((a * b : Nat) : ℚ) ∧ sqrt53 ((a * b : Nat) : ℚ) ≤ 2 ^ 40 := by
  have h1 : 1 ≤ a * b := Nat.mul_pos ha1 hb1
  have hab : a * b < 2 ^ 53 := lt_of_le_of_lt (Nat.mul_le_mul ha hb) (by norm_num)
  have q1 : (1 : ℚ) ≤ ((a * b : Nat) : ℚ) := by exact_mod_cast h1
  constructor
  · have := nat_le_sqrt53 (o := 1) (by norm_num) q1 (by simpa using q1)
    simpa using this
  · obtain ⟨s0, s1⟩ := sqrt53_upper q1
    have q2 : ((a * b : Nat) : ℚ) ≤ 2 ^ 53 := by exact_mod_cast hab.le
    by_contra hc
    rw [not_le] at hc
    have : (2 ^ 40 : ℚ) ^ 2 < sqrt53 ((a * b : Nat) : ℚ) ^ 2 := pow_lt_pow_left₀ hc (by norm_num) (by norm_num)
    have k : ((1 + eps) ^ 2) ^ 2 * (2 ^ 53) ≤ (2 ^ 40 : ℚ) ^ 2 := by norm_num [eps]
    have : ((1 + eps) ^ 2) ^ 2 * ((a * b : Nat) : ℚ) ≤ ((1 + eps) ^ 2) ^ 2 * (2 ^ 53) :=
      mul_le_mul_of_nonneg_left q2 (by norm_num [eps])
    linarith

theorem f64_thr_cosine (h0 : 0 < α) (h1 : α ≤ 1) (ha1 : 1 ≤ a) (hb1 : 1 ≤ b) (ha : a ≤ 65535) (hb : b ≤ 32767) :
    (cosineMetric (f64Ops oob)).threshold α a b = ⌈rnd53 (α * sqrt53 ((a * b : Nat) : ℚ))⌉ := by
  have e : ((a : Int) * b) = ((a * b : Nat) : Int) := by push_cast; rfl
  have hab : a * b < 2 ^ 53 := lt_of_le_of_lt (Nat.mul_le_mul ha hb) (by norm_num)
  obtain ⟨s1, s2⟩ := sqrt53_ab ha1 hb1 ha hb
  simp only [cosineMetric]
  rw [e, f64_ofNat hab]
  have x0 : 0 ≤ α * sqrt53 ((a * b : Nat) : ℚ) := by positivity
  have x1 : α * sqrt53 ((a * b : Nat) : ℚ) ≤ 2 ^ 40 := by nlinarith
  have z2 : rnd53 (α * sqrt53 ((a * b : Nat) : ℚ)) ≤ ((2 ^ 40 : Nat) : ℚ) := rnd53_le_nat (by norm_num) x0 (x1.trans (by norm_num))
  have z3 : ((2 ^ 40 : Nat) : ℚ) ≤ 2 ^ 62 := by norm_num
  rw [← f64_ceil_eq (oob := oob) (rnd53_nonneg x0) (z2.trans z3)]
  simp [f64Ops]

end

/-! ### The facts -/

/-- The metrics in float64 arithmetic with the similarity they are meant to compute. -/
inductive F64Metric (oob : Int) : Metric ℚ → (Nat → Nat → Nat → ℝ) → Prop
  | jaccard : F64Metric oob (jaccardMetric (f64Ops oob)) jaccardSim
  | dice : F64Metric oob (diceMetric (f64Ops oob)) diceSim
  | cosine : F64Metric oob (cosineMetric (f64Ops oob)) cosineSim
  | overlap : F64Metric oob (overlapMetric (f64Ops oob)) overlapSim

/-- What follows for each of them, for a query with `a` terms. -/
structure FloatFacts (oob : Int) (a : Nat) (M : Metric ℚ) (sim : Nat → Nat → Nat → ℝ) : Prop where
  score_le_one : ∀ b o : Nat, 1 ≤ b → b ≤ 32767 → o ≤ a → o ≤ b → metricScore (f64Ops oob) M o a b ≤ 1
  score_err : ∀ b o : Nat, 1 ≤ b → b ≤ 32767 → o ≤ a → o ≤ b →
    |((metricScore (f64Ops oob) M o a b : ℚ) : ℝ) - sim a b o| ≤ 1 / 2 ^ 50
  thr_pos : ∀ α : ℚ, 0 < α → α ≤ 1 → ∀ b : Nat, 1 ≤ b → b ≤ 32767 → 1 ≤ M.threshold α a b
  thr_sound : ∀ α : ℚ, 0 < α → α ≤ 1 → ∀ b o : Nat, 1 ≤ b → b ≤ 32767 → o ≤ a → o ≤ b → M.threshold α a b ≤ o →
    (α : ℝ) * (1 - 1 / 2 ^ 48) ≤ sim a b o
  complete : ∀ α : ℚ, 1 / 2 ^ 20 ≤ α → α ≤ 1 → ∀ b o : Nat, 1 ≤ b → b ≤ 32767 → o ≤ a → o ≤ b →
    (α : ℝ) * (1 + 1 / 2 ^ 48) ≤ sim a b o → M.threshold α a b ≤ o ∧ M.minY α a ≤ b ∧ (b : Int) ≤ M.maxY α a
  minY_pos : ∀ α : ℚ, 0 < α → α ≤ 1 → 1 ≤ M.minY α a
  minY_le : ∀ α : ℚ, 0 < α → α ≤ 1 → M.minY α a ≤ a
  le_maxY : ∀ α : ℚ, 1 / 2 ^ 20 ≤ α → α ≤ 1 → M.minY α a ≤ M.maxY α a
  gap : ∀ b o b' o' : Nat, 1 ≤ b → b ≤ 32767 → o ≤ a → o ≤ b → 1 ≤ b' → b' ≤ 32767 → o' ≤ a → o' ≤ b' →
    sim a b o < sim a b' o' → 1 / 2 ^ 47 < sim a b' o' - sim a b o
  zero : ∀ b, sim a b 0 = 0

end Verif
