import Verif.Props.MPH
/- C64: does the building of the hash table end? -/
namespace Verif.Props
open Verif

theorem find_slots {size : Nat} {values : List Nat} {words : List Bytes} (fuel : Nat) : ∀ {d0 d : Nat} {slots : List Nat},
    mphFind size values words fuel d0 = some (d, slots) → ∃ d, (words.map fun w => mphHash d w % size).Nodup := by
  induction fuel with
  | zero => intro d0 d slots h; cases h
  | succ fuel ih =>
    intro d0 d slots h
    simp only [mphFind] at h
    split at h
    · rename_i s hs
      obtain ⟨a, b, _⟩ := Mph.try_spec words (by simp) (by simp) hs
      rw [List.nil_append] at a
      rw [a] at b
      exact ⟨_, b⟩
    · exact ih h

theorem multi_slots {dict : Dict} {fuel : Nat} (order : List Nat) : ∀ {aux : List Int} {values : List Nat}
    {r : List Nat × List Int × List Nat},
    order.Pairwise (fun i j => (mphBucket dict j).length ≤ (mphBucket dict i).length) →
    mphMulti dict fuel order aux values = some r →
    ∀ i ∈ order, 2 ≤ (mphBucket dict i).length →
      ∃ d, (((mphBucket dict i).map dict.get).map fun w => mphHash d w % dict.length).Nodup := by
  induction order with
  | nil => intro _ _ _ _ _ i hi; cases hi
  | cons j order ih =>
    intro aux values r hd h i hi hl
    have hsp := List.pairwise_cons.1 hd
    simp only [mphMulti] at h
    split at h
    · rename_i hle
      exfalso
      rcases List.mem_cons.1 hi with rfl | hi
      · omega
      · have := hsp.1 i hi; omega
    · split at h
      · cases h
      · rename_i d slots hf
        rcases List.mem_cons.1 hi with rfl | hi
        · exact find_slots fuel hf
        · exact ih hsp.2 h i hi hl

/-- If two words of the dictionary hash to the same slot under every seed, Build never finishes. -/
theorem build_collision {dict : Dict} {order : List Nat} (hO : MphOrder dict order)
    (hkeys : (dict.map Prod.fst).Nodup) {e e' : Nat × Bytes} (he : e ∈ dict) (he' : e' ∈ dict) (hne : e.1 ≠ e'.1)
    (hw : ∀ d, mphHash d e.2 % dict.length = mphHash d e'.2 % dict.length) (fuel : Nat) : mphBuild dict order fuel = none := by
  unfold mphBuild
  cases hm : mphMulti dict fuel order (List.replicate dict.length 0) (List.replicate dict.length maxU32) with
  | none => rfl
  | some r =>
    exfalso
    have hpos : 0 < dict.length := List.length_pos_of_mem he
    have h1 : e.1 ∈ mphBucket dict (Mph.idx dict e.2) := Mph.mem_bucket.2 ⟨e, he, rfl, rfl⟩
    have h2 : e'.1 ∈ mphBucket dict (Mph.idx dict e.2) := Mph.mem_bucket.2 ⟨e', he', rfl, (hw 0).symm⟩
    have hlen : 2 ≤ (mphBucket dict (Mph.idx dict e.2)).length := by
      by_contra hlt
      cases hb : mphBucket dict (Mph.idx dict e.2) with
      | nil => rw [hb] at h1; cases h1
      | cons a l =>
        cases l with
        | nil => rw [hb] at h1 h2; simp at h1 h2; exact hne (h1.trans h2.symm)
        | cons b l => rw [hb] at hlt; simp at hlt
    obtain ⟨d, this⟩ := multi_slots order hO.descending hm (Mph.idx dict e.2)
      (hO.perm.mem_iff.2 (List.mem_range.2 (Nat.mod_lt _ hpos))) hlen
    rw [List.map_map] at this
    exact hne (List.inj_on_of_nodup_map this h1 h2 (by
      simp only [Function.comp_apply]
      rw [Mph.dict_get hkeys he, Mph.dict_get hkeys he', hw]))

/-- Modulo a power of two the hash only depends on the bytes modulo that power. -/
theorem hash_low_bits {k : Nat} (hk : k ≤ 32) {v w : Bytes} (h : List.Forall₂ (fun a b : UInt8 => a.toNat % 2 ^ k = b.toNat % 2 ^ k) v w)
    (d : Nat) : mphHash d v % 2 ^ k = mphHash d w % 2 ^ k := by
  unfold mphHash
  generalize (if d = 0 then 2166136261 else d) = s
  have aux : ∀ x y : Nat, x % 2 ^ k = y % 2 ^ k →
      v.foldl (fun h c => (h * 16777619 % 2 ^ 32) ^^^ c.toNat) x % 2 ^ k =
        w.foldl (fun h c => (h * 16777619 % 2 ^ 32) ^^^ c.toNat) y % 2 ^ k := by
    induction h with
    | nil => intro x y h; exact h
    | cons hab _ ih =>
      intro x y hxy
      simp only [List.foldl_cons]
      apply ih
      rw [Nat.xor_mod_two_pow, Nat.xor_mod_two_pow, hab, Nat.mod_mod_of_dvd _ (Nat.pow_dvd_pow 2 hk),
        Nat.mod_mod_of_dvd _ (Nat.pow_dvd_pow 2 hk), Nat.mul_mod, hxy, ← Nat.mul_mod]
  exact aux s s rfl

/-- C64 is false: on a dictionary of 2^k words, two of which agree in the k low bits of each of their bytes, Build never
finishes, no matter how many attempts are made and how the buckets are sorted. -/
theorem C64_power_of_two_diverges {words : List Bytes} {k : Nat} (hn : words.length = 2 ^ k) (hk : k ≤ 32) {i j : Nat}
    {v w : Bytes} (hi : words[i]? = some v) (hj : words[j]? = some w) (hij : i ≠ j)
    (h : List.Forall₂ (fun a b : UInt8 => a.toNat % 2 ^ k = b.toNat % 2 ^ k) v w) {order : List Nat}
    (hO : MphOrder (ramDict words) order) (fuel : Nat) : mphBuild (ramDict words) order fuel = none := by
  have hl : (ramDict words).length = 2 ^ k := by
    have := congrArg List.length (ramDict_keys words)
    rw [List.length_map, List.length_range] at this
    rw [this, hn]
  refine build_collision hO (by rw [ramDict_keys]; exact List.nodup_range) (e := (i, v)) (e' := (j, w)) (ramDict_mem.2 hi)
    (ramDict_mem.2 hj) hij ?_ fuel
  intro d
  rw [hl]
  exact hash_low_bits hk h d

/-- Two distinct words are enough: "a" and "c". -/
theorem C64_two_words_diverge (order : List Nat) (hO : MphOrder (ramDict [[97], [99]]) order) (fuel : Nat) :
    mphBuild (ramDict [[97], [99]]) order fuel = none :=
  C64_power_of_two_diverges (k := 1) rfl (by decide) (i := 0) (j := 1) rfl rfl (by decide)
    (.cons (by decide) .nil) hO fuel

/-- Whatever the dictionary, there is a result of the sorting. -/
theorem mphOrder_exists (dict : Dict) : ∃ order, MphOrder dict order := by
  refine ⟨(List.range dict.length).mergeSort fun i j => decide ((mphBucket dict j).length ≤ (mphBucket dict i).length),
    List.mergeSort_perm _ _, ?_⟩
  have := List.pairwise_mergeSort (le := fun i j => decide ((mphBucket dict j).length ≤ (mphBucket dict i).length))
    (by intro a b c h1 h2; simp only [decide_eq_true_eq] at *; omega)
    (by intro a b; simp only [Bool.or_eq_true, decide_eq_true_eq]; omega) (List.range dict.length)
  exact this.imp fun h => by simpa using h

/-- The hypotheses of C64_power_of_two_diverges are met by four words, "ab" and "eb" among them. -/
example : ([[97, 98], [120], [101, 98], [121, 122]] : List Bytes).length = 2 ^ 2 ∧
    List.Forall₂ (fun a b : UInt8 => a.toNat % 2 ^ 2 = b.toNat % 2 ^ 2) [97, 98] [101, 98] ∧
    ∃ order, MphOrder (ramDict [[97, 98], [120], [101, 98], [121, 122]]) order :=
  ⟨rfl, .cons (by decide) (.cons (by decide) .nil), mphOrder_exists _⟩

/-- C64, partial: if no two words share their first hash value modulo the size, Build finishes (without any attempt). What
is missing — and false in general — is that Build finishes on every set of distinct words. -/
theorem C64_terminates_partial {dict : Dict} (h : ∀ i, (mphBucket dict i).length ≤ 1) (order : List Nat) (fuel : Nat) :
    (mphBuild dict order fuel).isSome := by
  unfold mphBuild
  have : ∀ a values, ∃ r, mphMulti dict fuel order a values = some r := by
    intro a values
    cases order with
    | nil => exact ⟨_, rfl⟩
    | cons i order => simp only [mphMulti]; rw [if_pos (h i)]; exact ⟨_, rfl⟩
  obtain ⟨r, hr⟩ := this (List.replicate dict.length 0) (List.replicate dict.length maxU32)
  rw [hr]
  rfl

theorem find_at {size : Nat} {values : List Nat} {words : List Bytes} (fuel : Nat) : ∀ {d0 : Nat}, d0 < 2 ^ 32 → ∀ {d : Nat} {slots : List Nat},
    mphFind size values words fuel d0 = some (d, slots) →
    ∃ j, j < fuel ∧ d = (d0 + j) % 2 ^ 32 ∧ mphTry size values d words [] = some slots ∧
      ∀ i, i < j → mphTry size values ((d0 + i) % 2 ^ 32) words [] = none := by
  induction fuel with
  | zero => intro d0 _ d slots h; cases h
  | succ fuel ih =>
    intro d0 h0 d slots h
    simp only [mphFind] at h
    split at h
    · rename_i s hs
      cases h
      exact ⟨0, by omega, by rw [Nat.add_zero, Nat.mod_eq_of_lt h0], hs, fun i hi => by omega⟩
    · rename_i hs
      have e : u32 (d0 + 1) = (d0 + 1) % 2 ^ 32 := rfl
      rw [e] at h
      obtain ⟨j, hj, hd, ht, hn⟩ := ih (Nat.mod_lt _ (by decide)) h
      refine ⟨j + 1, by omega, ?_, ht, ?_⟩
      · rw [hd, Nat.mod_add_mod]; congr 1; omega
      · intro i hi
        cases i with
        | zero => rw [Nat.add_zero, Nat.mod_eq_of_lt h0]; exact hs
        | succ i =>
          have := hn i (by omega)
          rw [Nat.mod_add_mod] at this
          rwa [show d0 + (i + 1) = d0 + 1 + i by omega]

theorem find_reached {size : Nat} {values : List Nat} {words : List Bytes} {slots : List Nat} (j : Nat) : ∀ {d0 : Nat}, d0 < 2 ^ 32 →
    mphTry size values ((d0 + j) % 2 ^ 32) words [] = some slots →
    (∀ i, i < j → mphTry size values ((d0 + i) % 2 ^ 32) words [] = none) → ∀ {fuel : Nat}, j < fuel →
    mphFind size values words fuel d0 = some ((d0 + j) % 2 ^ 32, slots) := by
  induction j with
  | zero =>
    intro d0 h0 ht _ fuel hf
    obtain ⟨fuel, rfl⟩ : ∃ f, fuel = f + 1 := ⟨fuel - 1, by omega⟩
    have e : (d0 + 0) % 2 ^ 32 = d0 := Nat.mod_eq_of_lt h0
    rw [e] at ht ⊢
    simp only [mphFind, ht]
  | succ j ih =>
    intro d0 h0 ht hn fuel hf
    obtain ⟨fuel, rfl⟩ : ∃ f, fuel = f + 1 := ⟨fuel - 1, by omega⟩
    have h1 := hn 0 (by omega)
    rw [Nat.add_zero, Nat.mod_eq_of_lt h0] at h1
    simp only [mphFind, h1]
    have e : u32 (d0 + 1) = (d0 + 1) % 2 ^ 32 := rfl
    have e2 : ∀ i, ((d0 + 1) % 2 ^ 32 + i) % 2 ^ 32 = (d0 + (i + 1)) % 2 ^ 32 := fun i => by
      rw [Nat.mod_add_mod, show d0 + 1 + i = d0 + (i + 1) by omega]
    rw [e, ih (Nat.mod_lt _ (by decide)) (by rw [e2]; exact ht) (fun i hi => by rw [e2]; exact hn (i + 1) (by omega)) (by omega), e2]

/-- What is found in any number of attempts is found in the first 2^32. -/
theorem find_bounded {size : Nat} {values : List Nat} {words : List Bytes} {fuel d : Nat} {slots : List Nat}
    (h : mphFind size values words fuel 1 = some (d, slots)) {fuel' : Nat} (hf : min fuel (2 ^ 32) ≤ fuel') :
    mphFind size values words fuel' 1 = some (d, slots) := by
  obtain ⟨j, hj, rfl, ht, hn⟩ := find_at fuel (by decide) h
  by_cases hlt : j < 2 ^ 32
  · exact find_reached j (by decide) ht hn (by omega)
  · have := hn (j - 2 ^ 32) (by omega)
    rw [show (1 + j) % 2 ^ 32 = (1 + (j - 2 ^ 32)) % 2 ^ 32 by omega, this] at ht
    cases ht

theorem multi_bounded {dict : Dict} {fuel fuel' : Nat} (hf : min fuel (2 ^ 32) ≤ fuel') (order : List Nat) : ∀ {aux : List Int} {values : List Nat}
    {r : List Nat × List Int × List Nat}, mphMulti dict fuel order aux values = some r → mphMulti dict fuel' order aux values = some r := by
  induction order with
  | nil => intro _ _ _ h; exact h
  | cons j order ih =>
    intro aux values r h
    simp only [mphMulti] at h ⊢
    split at h
    · rename_i hle; rw [if_pos hle]; exact h
    · rename_i hle
      rw [if_neg hle]
      split at h
      · cases h
      · rename_i d slots hd
        rw [find_bounded hd hf]
        exact ih h

/-- **C64**, partial: Build ends with at most 2^32 attempts for each group of words, or never; and the result does not depend on how long
one waits. -/
theorem C64_bounded_partial {dict : Dict} {order : List Nat} {fuel : Nat} {m : MPH} (h : mphBuild dict order fuel = some m) :
    mphBuild dict order (2 ^ 32) = some m ∧ ∀ fuel', fuel ≤ fuel' → mphBuild dict order fuel' = some m := by
  have key : ∀ fuel', min fuel (2 ^ 32) ≤ fuel' → mphBuild dict order fuel' = some m := by
    intro fuel' hf
    unfold mphBuild at h ⊢
    cases hm : mphMulti dict fuel order (List.replicate dict.length 0) (List.replicate dict.length maxU32) with
    | none => rw [hm] at h; cases h
    | some r => rw [hm] at h; rw [multi_bounded hf order hm]; exact h
  exact ⟨key _ (Nat.min_le_right _ _), fun f hf => key f (Nat.le_trans (Nat.min_le_left _ _) hf)⟩

/-- The last bit of a hash value: the seed and the bytes. -/
theorem hash_parity (w : Bytes) (s : Nat) :
    mphHash s w % 2 = ((if s = 0 then 2166136261 else s) + (w.map UInt8.toNat).sum) % 2 := by
  unfold mphHash
  generalize (if s = 0 then 2166136261 else s) = s
  induction w generalizing s with
  | nil => simp
  | cons c w ih =>
    rw [List.foldl_cons, ih, List.map_cons, List.sum_cons]
    have : ((s * 16777619 % 2 ^ 32) ^^^ c.toNat) % 2 = (s + c.toNat) % 2 := by
      have := Nat.xor_mod_two_pow (a := s * 16777619 % 2 ^ 32) (b := c.toNat) (n := 1)
      rw [Nat.pow_one] at this
      rw [this]
      have h1 : s * 16777619 % 2 ^ 32 % 2 = s % 2 := by omega
      rw [h1]
      rcases Nat.mod_two_eq_zero_or_one s with h | h <;> rcases Nat.mod_two_eq_zero_or_one c.toNat with h' | h' <;> rw [h, h'] <;> simp <;> omega
    omega

/-- **C64** for two words, exactly: Build ends if and only if the sums of the bytes of the two words differ in parity; otherwise it never
ends, so it hangs on about half of all pairs of words. -/
theorem C64_two_words_exact {v w : Bytes} {order : List Nat} (hO : MphOrder (ramDict [v, w]) order) :
    (∃ fuel, (mphBuild (ramDict [v, w]) order fuel).isSome) ↔
      (v.map UInt8.toNat).sum % 2 ≠ (w.map UInt8.toNat).sum % 2 := by
  constructor
  · rintro ⟨fuel, h⟩ he
    have := build_collision hO (by rw [ramDict_keys]; exact List.nodup_range) (e := (0, v)) (e' := (1, w)) (ramDict_mem.2 rfl)
      (ramDict_mem.2 rfl) (by simp) (fun d => by
        show mphHash d v % 2 = mphHash d w % 2
        rw [hash_parity, hash_parity]; omega) fuel
    rw [this] at h
    cases h
  · intro hne
    refine ⟨0, C64_terminates_partial (fun i => ?_) order 0⟩
    have h1 := hash_parity v 0
    have h2 := hash_parity w 0
    unfold mphBucket
    rw [List.length_map, show ramDict [v, w] = [(0, v), (1, w)] from rfl]
    show (List.filter (fun e : Nat × Bytes => mphHash 0 e.2 % 2 == i) [(0, v), (1, w)]).length ≤ 1
    rw [List.filter_cons, List.filter_cons, List.filter_nil]
    dsimp only
    by_cases ha : (mphHash 0 v % 2 == i) = true
    · have hb : ¬ (mphHash 0 w % 2 == i) = true := by
        rw [beq_iff_eq] at ha ⊢
        intro hb
        rw [← hb, h1, h2] at ha
        omega
      rw [if_pos ha, if_neg hb]; simp
    · rw [if_neg ha]
      split <;> simp

/-- Both cases occur: "a", "b" and "a", "c". -/
example : (∃ order fuel, MphOrder (ramDict [[97], [98]]) order ∧ (mphBuild (ramDict [[97], [98]]) order fuel).isSome) ∧
    ∃ order, MphOrder (ramDict [[97], [99]]) order ∧ ∀ fuel, mphBuild (ramDict [[97], [99]]) order fuel = none := by
  obtain ⟨o1, h1⟩ := mphOrder_exists (ramDict [[97], [98]])
  obtain ⟨o2, h2⟩ := mphOrder_exists (ramDict [[97], [99]])
  obtain ⟨fuel, h⟩ := (C64_two_words_exact h1).2 (by decide)
  refine ⟨⟨o1, fuel, h1, h⟩, o2, h2, fun fuel => ?_⟩
  by_contra hne
  exact (C64_two_words_exact h2).1 ⟨fuel, Option.isSome_iff_ne_none.2 hne⟩ (by decide)

end Verif.Props
