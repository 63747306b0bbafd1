import Verif.Model.Store
import Verif.Spec.Bytes
import Mathlib.Tactic.Ring
import Mathlib.Tactic.IntervalCases

namespace Verif
open Spec

theorem and_x7f (b : Nat) : b &&& 0x7f = b % 128 := by
  have := Nat.and_two_pow_sub_one_eq_mod b 7
  simpa using this

theorem and_x80_eq_zero {b : Nat} (h : b < 256) : b &&& 0x80 = 0 ↔ b < 128 := by
  have : ∀ b : Fin 256, (b.val &&& 0x80 = 0 ↔ b.val < 128) := by decide +kernel
  exact this ⟨b, h⟩

theorem or_x80 (b : Nat) : 0x80 ||| (b &&& 0x7F) = 128 + b % 128 := by
  rw [and_x7f]
  have h := Nat.two_pow_add_eq_or_of_lt (i := 7) (b := b % 128) (by omega) 1
  simp at h
  omega

theorem u8_lt (b : UInt8) : b.toNat < 256 := b.toNat_lt

theorem u8_ofNat_toNat (n : Nat) : (UInt8.ofNat n).toNat = n % 256 := by simp

theorem or_shift {v x s : Nat} (hv : v < 2 ^ s) (hs : s ≤ 32) :
    v ||| u32 (x <<< s) = v + u32 (x * 2 ^ s) := by
  unfold u32
  rw [Nat.shiftLeft_eq]
  have h1 : x * 2 ^ s % 2 ^ 32 = 2 ^ s * (x % 2 ^ (32 - s)) := by
    have : 2 ^ 32 = 2 ^ s * 2 ^ (32 - s) := by rw [← Nat.pow_add]; congr 1; omega
    rw [this, Nat.mul_comm x, Nat.mul_mod_mul_left]
  rw [h1, Nat.or_comm, ← Nat.two_pow_add_eq_or_of_lt hv, Nat.add_comm]

theorem or_shift' {v x s : Nat} (hv : v < 2 ^ s) (hs : s ≤ 32) :
    v ||| (x <<< s) = v + x * 2 ^ s := by
  rw [Nat.shiftLeft_eq, Nat.mul_comm, Nat.or_comm, ← Nat.two_pow_add_eq_or_of_lt hv, Nat.add_comm]

theorem byteAt_of_drop {buf l : List UInt8} {i k : Nat} {b : UInt8} (h : buf.drop i = l)
    (hb : l[k]? = some b) : BytesInput.byteAt buf (i + k) = .ok b.toNat := by
  subst h
  rw [List.getElem?_drop] at hb
  simp [BytesInput.byteAt, hb]

theorem lt_of_drop_cons {α} {buf l : List α} {i : Nat} {b : α} (h : buf.drop i = b :: l) :
    i < buf.length := by
  by_contra hc
  rw [List.drop_eq_nil_of_le (by omega)] at h
  simp at h

theorem drop_succ_of_drop {α} {buf l : List α} {i : Nat} {b : α} (h : buf.drop i = b :: l) :
    buf.drop (i + 1) = l := by
  rw [← List.drop_drop, h]; rfl

theorem drop_add_of_drop {α} {buf l r : List α} {i : Nat} (h : buf.drop i = l ++ r) :
    buf.drop (i + l.length) = r := by
  rw [← List.drop_drop, h]; simp

namespace BytesInput

theorem slowLoop_code {buf pre : List UInt8} {t : UInt8} {rest : List UInt8} :
    ∀ {k s i v : Nat}, (∀ b ∈ pre, 128 ≤ b.toNat) → t.toNat < 128 →
    buf.drop i = pre ++ t :: rest → pre.length < k → v < 2 ^ s → s + 7 * k ≤ 35 →
    slowLoop buf k s i v = .ok (u32 (v + 2 ^ s * leb (pre ++ [t])), i + pre.length + 1) := by
  induction pre with
  | nil =>
    intro k s i v _ ht hd hk hv hs
    obtain ⟨k, rfl⟩ : ∃ k', k = k' + 1 := ⟨k - 1, by simp at hk; omega⟩
    simp only [List.nil_append] at hd
    have hl := lt_of_drop_cons hd
    have hb := byteAt_of_drop (k := 0) (b := t) hd (by simp)
    rw [Nat.add_zero] at hb
    have hs' : s ≤ 28 := by omega
    simp only [slowLoop, Nat.not_le.mpr hl, if_false, hb, ht, if_true, and_x7f]
    rw [or_shift hv (by omega), Nat.mod_eq_of_lt ht]
    simp only [leb, List.nil_append, List.length_nil, Nat.add_zero, Nat.mul_zero,
      Nat.mod_eq_of_lt ht]
    congr 2
    have hle : 2 ^ s ≤ 2 ^ 28 := Nat.pow_le_pow_right (by omega) hs'
    unfold u32
    have h1 : t.toNat * 2 ^ s % 2 ^ 32 = 2 ^ s * (t.toNat % 2 ^ (32 - s)) := by
      have : 2 ^ 32 = 2 ^ s * 2 ^ (32 - s) := by rw [← Nat.pow_add]; congr 1; omega
      rw [this, Nat.mul_comm t.toNat, Nat.mul_mod_mul_left]
    rw [Nat.mul_comm (2 ^ s), Nat.add_mod, h1]
    have hvm : v % 2 ^ 32 = v := Nat.mod_eq_of_lt (by omega)
    rw [hvm]
    refine (Nat.mod_eq_of_lt ?_).symm
    have : 2 ^ s * (t.toNat % 2 ^ (32 - s) + 1) ≤ 2 ^ s * 2 ^ (32 - s) :=
      Nat.mul_le_mul_left _ (Nat.mod_lt _ (by positivity))
    rw [← Nat.pow_add, show s + (32 - s) = 32 by omega] at this
    rw [Nat.mul_add] at this
    omega
  | cons b pre ih =>
    intro k s i v hp ht hd hk hv hs
    obtain ⟨k, rfl⟩ : ∃ k', k = k' + 1 := ⟨k - 1, by simp at hk; omega⟩
    rw [List.cons_append] at hd
    have hl := lt_of_drop_cons hd
    have hb := byteAt_of_drop (k := 0) (b := b) hd (by simp)
    rw [Nat.add_zero] at hb
    have hb128 : ¬ b.toNat < 128 := by have := hp b (by simp); omega
    have hk' : 1 ≤ k := by simp at hk; omega
    simp only [slowLoop, Nat.not_le.mpr hl, if_false, hb, hb128, and_x7f]
    rw [or_shift hv (by omega)]
    have hle : 2 ^ s ≤ 2 ^ 21 := Nat.pow_le_pow_right (by omega) (by omega)
    have hx : b.toNat % 128 * 2 ^ s < 2 ^ 32 := by
      have : b.toNat % 128 * 2 ^ s ≤ 127 * 2 ^ 21 := Nat.mul_le_mul (by omega) hle
      omega
    have hu : u32 (b.toNat % 128 * 2 ^ s) = b.toNat % 128 * 2 ^ s := Nat.mod_eq_of_lt hx
    rw [hu, ih (fun b' h' => hp b' (by simp [h'])) ht (drop_succ_of_drop hd)
      (by simp at hk; omega) ?_ (by omega)]
    · congr 2
      · simp only [List.cons_append, leb]
        congr 1
        rw [Nat.pow_add]; ring
      · simp; omega
    · rw [Nat.pow_add]
      have : b.toNat % 128 * 2 ^ s ≤ 127 * 2 ^ s := Nat.mul_le_mul (by omega) (Nat.le_refl _)
      omega

/-- All bytes up to the end are continuation bytes and there are fewer than `k` of them. -/
theorem slowLoop_eof {buf : List UInt8} : ∀ {k s i v : Nat},
    (∀ b ∈ buf.drop i, 128 ≤ b.toNat) → (buf.drop i).length < k →
    slowLoop buf k s i v = .error .unexpectedEOF := by
  intro k
  induction k with
  | zero => intro s i v _ h; simp at h
  | succ k ih =>
    intro s i v hp hk
    unfold slowLoop
    split
    · rfl
    · rename_i hl
      have hl : i < buf.length := by omega
      have hd : buf.drop i = buf[i] :: buf.drop (i + 1) := (List.drop_eq_getElem_cons hl)
      have hb := byteAt_of_drop (k := 0) (b := buf[i]) hd (by simp)
      rw [Nat.add_zero] at hb
      have h128 : ¬ buf[i].toNat < 128 := by
        have := hp buf[i] (by rw [hd]; exact List.mem_cons_self); omega
      simp only [hb, h128, if_false]
      apply ih
      · intro b hb'; exact hp b (by rw [hd]; exact List.mem_cons_of_mem _ hb')
      · rw [hd] at hk; simp at hk ⊢; omega

/-- At least `k` continuation bytes: overflow. -/
theorem slowLoop_overflow {buf : List UInt8} : ∀ {k s i v : Nat},
    (∀ b ∈ (buf.drop i).take k, 128 ≤ b.toNat) → k ≤ (buf.drop i).length →
    slowLoop buf k s i v = .error .u32Overflow := by
  intro k
  induction k with
  | zero => intros; rfl
  | succ k ih =>
    intro s i v hp hk
    unfold slowLoop
    have hl : i < buf.length := by simp at hk; omega
    have hd : buf.drop i = buf[i] :: buf.drop (i + 1) := (List.drop_eq_getElem_cons hl)
    rw [if_neg (by omega)]
    have hb := byteAt_of_drop (k := 0) (b := buf[i]) hd (by simp)
    rw [Nat.add_zero] at hb
    rw [hd] at hp hk
    have h128 : ¬ buf[i].toNat < 128 := by
      have := hp buf[i] (by rw [List.take_succ_cons]; exact List.mem_cons_self); omega
    simp only [hb, h128, if_false]
    apply ih
    · intro b hb'; exact hp b (by rw [List.take_succ_cons]; exact List.mem_cons_of_mem _ hb')
    · simp at hk ⊢; omega

/-- The bytes of any list split at the first final byte. -/
theorem split_code (l : List UInt8) :
    (∃ pre t rest, l = pre ++ t :: rest ∧ (∀ b ∈ pre, 128 ≤ b.toNat) ∧ t.toNat < 128) ∨
    (∀ b ∈ l, 128 ≤ b.toNat) := by
  induction l with
  | nil => right; simp
  | cons b l ih =>
    by_cases hb : b.toNat < 128
    · left; exact ⟨[], b, l, by simp, by simp, hb⟩
    · rcases ih with ⟨pre, t, rest, rfl, hp, ht⟩ | h
      · left
        exact ⟨b :: pre, t, rest, by simp, by
          intro x hx; rcases List.mem_cons.1 hx with rfl | hx
          · omega
          · exact hp x hx, ht⟩
      · right; intro x hx; rcases List.mem_cons.1 hx with rfl | hx
        · omega
        · exact h x hx

theorem fastPath_eq_slow {buf : List UInt8} {i : Nat} {b0 b1 b2 b3 b4 : UInt8} {rest : List UInt8}
    (hd : buf.drop i = b0 :: b1 :: b2 :: b3 :: b4 :: rest) (h0 : 128 ≤ b0.toNat) :
    fastPath buf i = slowLoop buf 5 0 i 0 := by
  have e0 := byteAt_of_drop (k := 0) (b := b0) hd (by simp)
  have e1 := byteAt_of_drop (k := 1) (b := b1) hd (by simp)
  have e2 := byteAt_of_drop (k := 2) (b := b2) hd (by simp)
  have e3 := byteAt_of_drop (k := 3) (b := b3) hd (by simp)
  have e4 := byteAt_of_drop (k := 4) (b := b4) hd (by simp)
  simp only [Nat.add_zero] at e0
  have hlen : i + 5 ≤ buf.length := by
    have := congrArg List.length hd; simp at this; omega
  have l0 := u8_lt b0; have l1 := u8_lt b1; have l2 := u8_lt b2; have l3 := u8_lt b3
  have l4 := u8_lt b4
  have v0 : u32sub b0.toNat 0x80 = b0.toNat - 128 := by unfold u32sub; omega
  have v1 : u32 (b0.toNat - 128 + u32 (b1.toNat * 2 ^ 7))
      = b0.toNat - 128 + b1.toNat * 128 := by unfold u32; omega
  have v1' (h : ¬ b1.toNat < 128) : u32sub (b0.toNat - 128 + b1.toNat * 128) (0x80 * 2 ^ 7)
      = b0.toNat - 128 + (b1.toNat - 128) * 128 := by unfold u32sub; omega
  have v2 : u32 (b0.toNat - 128 + (b1.toNat - 128) * 128 + u32 (b2.toNat * 2 ^ 14))
      = b0.toNat - 128 + (b1.toNat - 128) * 128 + b2.toNat * 16384 := by unfold u32; omega
  have v2' (h : ¬ b2.toNat < 128) :
      u32sub (b0.toNat - 128 + (b1.toNat - 128) * 128 + b2.toNat * 16384) (0x80 * 2 ^ 14)
      = b0.toNat - 128 + (b1.toNat - 128) * 128 + (b2.toNat - 128) * 16384 := by
    unfold u32sub; omega
  have v3 : u32 (b0.toNat - 128 + (b1.toNat - 128) * 128 + (b2.toNat - 128) * 16384
        + u32 (b3.toNat * 2 ^ 21))
      = b0.toNat - 128 + (b1.toNat - 128) * 128 + (b2.toNat - 128) * 16384
        + b3.toNat * 2097152 := by unfold u32; omega
  have v3' (h : ¬ b3.toNat < 128) :
      u32sub (b0.toNat - 128 + (b1.toNat - 128) * 128 + (b2.toNat - 128) * 16384
        + b3.toNat * 2097152) (0x80 * 2 ^ 21)
      = b0.toNat - 128 + (b1.toNat - 128) * 128 + (b2.toNat - 128) * 16384
        + (b3.toNat - 128) * 2097152 := by
    unfold u32sub; omega
  have m0 : b0.toNat % 128 = b0.toNat - 128 := by omega
  have m (b : UInt8) (h : ¬ b.toNat < 128) : b.toNat % 128 = b.toNat - 128 := by
    have := u8_lt b; omega
  simp only [fastPath, e0, e1, e2, e3, e4, Nat.add_assoc, Nat.reduceAdd, bind, Except.bind,
    and_x80_eq_zero l1, and_x80_eq_zero l2, and_x80_eq_zero l3, and_x80_eq_zero l4, pure,
    Except.pure, throw, throwThe, MonadExceptOf.throw, Nat.shiftLeft_eq]
  rw [v0, v1]
  by_cases h1 : b1.toNat < 128
  · rw [slowLoop_code (pre := [b0]) (t := b1) (rest := b2 :: b3 :: b4 :: rest)
      (by simpa using h0) h1 (by simpa using hd) (by simp) (by simp) (by omega)]
    simp only [h1, if_true, leb, u32, List.cons_append, List.nil_append, List.length_singleton, m0,
      Nat.mod_eq_of_lt h1]
    simp only [Except.ok.injEq, Prod.mk.injEq, and_true]; clear v0 v1 v1' v2 v2' v3 v3'; omega
  rw [if_neg h1, v1' h1, v2]
  by_cases h2 : b2.toNat < 128
  · rw [slowLoop_code (pre := [b0, b1]) (t := b2) (rest := b3 :: b4 :: rest)
      (by simp; omega) h2 (by simpa using hd) (by simp) (by simp) (by omega)]
    simp only [h2, if_true, leb, u32, List.cons_append, List.nil_append, List.length_cons,
      List.length_nil, m0, m b1 h1, Nat.mod_eq_of_lt h2]
    simp only [Except.ok.injEq, Prod.mk.injEq, and_true]; clear v0 v1 v1' v2 v2' v3 v3'; omega
  rw [if_neg h2, v2' h2, v3]
  by_cases h3 : b3.toNat < 128
  · rw [slowLoop_code (pre := [b0, b1, b2]) (t := b3) (rest := b4 :: rest)
      (by simp; omega) h3 (by simpa using hd) (by simp) (by simp) (by omega)]
    simp only [h3, if_true, leb, u32, List.cons_append, List.nil_append, List.length_cons,
      List.length_nil, m0, m b1 h1, m b2 h2, Nat.mod_eq_of_lt h3]
    simp only [Except.ok.injEq, Prod.mk.injEq, and_true]; clear v0 v1 v1' v2 v2' v3 v3'; omega
  rw [if_neg h3, v3' h3]
  by_cases h4 : b4.toNat < 128
  · rw [slowLoop_code (pre := [b0, b1, b2, b3]) (t := b4) (rest := rest)
      (by simp; omega) h4 (by simpa using hd) (by simp) (by simp) (by omega)]
    simp only [h4, if_true, leb, u32, List.cons_append, List.nil_append, List.length_cons,
      List.length_nil, m0, m b1 h1, m b2 h2, m b3 h3, Nat.mod_eq_of_lt h4, Nat.add_mod_mod]
    simp only [Except.ok.injEq, Prod.mk.injEq, and_true]
    clear v0 v1 v1' v2 v2' v3 v3'
    have : ∀ a b : Nat, a = b → a % 2 ^ 32 = b % 2 ^ 32 := by intro a b h; rw [h]
    apply this
    omega
  rw [if_neg h4, slowLoop_overflow]
  · rw [hd]; simp; omega
  · rw [hd]; simp

theorem readVUInt32_eq_slow (r : BytesInput) (h : r.i < r.buf.length) :
    readVUInt32 r = readVUInt32Slow r := by
  obtain ⟨buf, i⟩ := r
  simp only at h
  have hd : buf.drop i = buf[i] :: buf.drop (i + 1) := (List.drop_eq_getElem_cons h)
  have hb := byteAt_of_drop (k := 0) (b := buf[i]) hd (by simp)
  rw [Nat.add_zero] at hb
  unfold readVUInt32
  rw [if_neg (by simpa using h)]
  simp only [hb]
  by_cases h0 : buf[i].toNat < 128
  · simp only [h0, if_true]
    unfold readVUInt32Slow
    simp only []
    rw [slowLoop_code (pre := []) (t := buf[i]) (rest := buf.drop (i + 1)) (by simp) h0
      (by simpa using hd) (by simp) (by simp) (by omega)]
    simp only [leb, u32, List.nil_append, List.length_nil]
    have : (0 + 2 ^ 0 * (buf[i].toNat % 128 + 128 * 0)) % 2 ^ 32 = buf[i].toNat := by omega
    rw [this]
  · simp only [h0, if_false]
    split
    · rfl
    · rename_i h5
      obtain ⟨b0, b1, b2, b3, b4, rest, hd5⟩ :
          ∃ b0 b1 b2 b3 b4 rest, buf.drop i = b0 :: b1 :: b2 :: b3 :: b4 :: rest := by
        have hl : 5 ≤ (buf.drop i).length := by simp; omega
        match hm : buf.drop i, hl with
        | b0 :: b1 :: b2 :: b3 :: b4 :: rest, _ => exact ⟨b0, b1, b2, b3, b4, rest, rfl⟩
      have hb0 : b0 = buf[i] := by rw [hd] at hd5; injection hd5 with h1 _; exact h1.symm
      rw [fastPath_eq_slow hd5 (by rw [hb0]; omega)]
      rfl

theorem readVUInt32_code {buf pre : List UInt8} {t : UInt8} {rest : List UInt8} {i : Nat}
    (hp : ∀ b ∈ pre, 128 ≤ b.toNat) (ht : t.toNat < 128)
    (hd : buf.drop i = pre ++ t :: rest) (hk : pre.length < 5) :
    readVUInt32 ⟨buf, i⟩ = (.ok (leb (pre ++ [t]) % 2 ^ 32), ⟨buf, i + pre.length + 1⟩) := by
  have hl : i < buf.length := by
    cases pre with
    | nil => exact lt_of_drop_cons hd
    | cons b pre => exact lt_of_drop_cons hd
  rw [readVUInt32_eq_slow _ hl]
  unfold readVUInt32Slow
  simp only []
  rw [slowLoop_code hp ht hd hk (by simp) (by omega)]
  simp [u32]

end BytesInput

/-! ### the encoder -/

theorem encVUInt32_small {v : Nat} (h : v < 128) : encVUInt32 v = [UInt8.ofNat v] := by
  rw [encVUInt32]; simp; omega

theorem encVUInt32_big {v : Nat} (h : 128 ≤ v) :
    encVUInt32 v = UInt8.ofNat (128 + v % 128) :: encVUInt32 (v / 128) := by
  rw [encVUInt32, dif_neg (by omega), or_x80, Nat.shiftRight_eq_div_pow]

theorem encVUInt32_spec (v : Nat) : ∃ pre t, encVUInt32 v = pre ++ [t] ∧
    (∀ b ∈ pre, 128 ≤ b.toNat) ∧ t.toNat < 128 ∧ leb (pre ++ [t]) = v ∧
    (∀ k, v < 128 ^ (k + 1) → pre.length ≤ k) := by
  induction v using Nat.strong_induction_on with
  | _ v ih =>
    by_cases h : v < 128
    · refine ⟨[], UInt8.ofNat v, ?_, by simp, ?_, ?_, by simp⟩
      · rw [encVUInt32_small h]; rfl
      · rw [u8_ofNat_toNat]; omega
      · simp only [leb, List.nil_append, u8_ofNat_toNat]; omega
    · obtain ⟨pre, t, he, hp, ht, hl, hk⟩ := ih (v / 128) (by omega)
      refine ⟨UInt8.ofNat (128 + v % 128) :: pre, t, ?_, ?_, ht, ?_, ?_⟩
      · rw [encVUInt32_big (by omega), he]; rfl
      · intro b hb
        rcases List.mem_cons.1 hb with rfl | hb
        · rw [u8_ofNat_toNat]; omega
        · exact hp b hb
      · simp only [leb, List.cons_append, u8_ofNat_toNat, hl]; omega
      · intro k hv
        cases k with
        | zero => simp at hv; omega
        | succ k =>
          have := hk k (by rw [Nat.div_lt_iff_lt_mul (by omega), ← Nat.pow_succ]; exact hv)
          simp; omega

theorem encVUInt32_length {v : Nat} (h : v < 2 ^ 32) :
    1 ≤ (encVUInt32 v).length ∧ (encVUInt32 v).length ≤ 5 := by
  obtain ⟨pre, t, he, -, -, -, hk⟩ := encVUInt32_spec v
  have := hk 4 (by omega)
  rw [he]; simp; omega

theorem encVUInt32_pos (v : Nat) : 1 ≤ (encVUInt32 v).length := by
  obtain ⟨pre, t, he, -, -, -, hk⟩ := encVUInt32_spec v
  rw [he]; simp

theorem readVUInt32_enc {buf rest : List UInt8} {i v : Nat} (hv : v < 2 ^ 32)
    (hd : buf.drop i = encVUInt32 v ++ rest) :
    BytesInput.readVUInt32 ⟨buf, i⟩ = (.ok v, ⟨buf, i + (encVUInt32 v).length⟩) := by
  obtain ⟨pre, t, he, hp, ht, hl, hk⟩ := encVUInt32_spec v
  have h4 := hk 4 (by omega)
  rw [he] at hd
  rw [BytesInput.readVUInt32_code hp ht (by simpa using hd) (by omega), hl, he,
    Nat.mod_eq_of_lt hv]
  simp [Nat.add_assoc]

theorem encUInt32_length (v : Nat) : (encUInt32 v).length = 4 := rfl
theorem encUInt16_length (v : Nat) : (encUInt16 v).length = 2 := rfl

theorem readUInt32_bytes {buf rest : List UInt8} {i : Nat} {b0 b1 b2 b3 : UInt8}
    (hd : buf.drop i = b0 :: b1 :: b2 :: b3 :: rest) :
    BytesInput.readUInt32 ⟨buf, i⟩ = (.ok (le [b0, b1, b2, b3]), ⟨buf, i + 4⟩) := by
  have hlen : i + 4 ≤ buf.length := by
    have := congrArg List.length hd; simp at this; omega
  unfold BytesInput.readUInt32
  rw [if_neg (by simp; omega)]
  simp only [hd, BytesInput.leUint32, le]
  have l0 := u8_lt b0; have l1 := u8_lt b1; have l2 := u8_lt b2
  rw [or_shift' (s := 8) (by omega) (by omega), or_shift' (s := 16) (by omega) (by omega),
    or_shift' (s := 24) (by omega) (by omega)]
  congr 2; omega

theorem readUInt16_bytes {buf rest : List UInt8} {i : Nat} {b0 b1 : UInt8}
    (hd : buf.drop i = b0 :: b1 :: rest) :
    BytesInput.readUInt16 ⟨buf, i⟩ = (.ok (le [b0, b1]), ⟨buf, i + 2⟩) := by
  have hlen : i + 2 ≤ buf.length := by
    have := congrArg List.length hd; simp at this; omega
  unfold BytesInput.readUInt16
  rw [if_neg (by simp; omega)]
  simp only [hd, BytesInput.leUint16, le]
  have l0 := u8_lt b0
  rw [or_shift' (s := 8) (by omega) (by omega)]
  congr 2; omega

theorem le_encUInt32 {v : Nat} (hv : v < 2 ^ 32) : le (encUInt32 v) = v := by
  simp only [le, encUInt32, u8_ofNat_toNat, Nat.shiftRight_eq_div_pow]; omega

theorem le_encUInt16 {v : Nat} (hv : v < 2 ^ 16) : le (encUInt16 v) = v := by
  simp only [le, encUInt16, u8_ofNat_toNat, Nat.shiftRight_eq_div_pow]; omega

theorem readUInt32_enc {buf rest : List UInt8} {i v : Nat} (hv : v < 2 ^ 32)
    (hd : buf.drop i = encUInt32 v ++ rest) :
    BytesInput.readUInt32 ⟨buf, i⟩ = (.ok v, ⟨buf, i + 4⟩) := by
  rw [readUInt32_bytes (by simpa [encUInt32] using hd)]
  have := le_encUInt32 hv
  simp only [encUInt32] at this
  rw [this]

theorem readUInt16_enc {buf rest : List UInt8} {i v : Nat} (hv : v < 2 ^ 16)
    (hd : buf.drop i = encUInt16 v ++ rest) :
    BytesInput.readUInt16 ⟨buf, i⟩ = (.ok v, ⟨buf, i + 2⟩) := by
  rw [readUInt16_bytes (by simpa [encUInt16] using hd)]
  have := le_encUInt16 hv
  simp only [encUInt16] at this
  rw [this]

end Verif
