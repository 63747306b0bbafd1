import Verif.Model.Compression
import Verif.Proofs.Store

namespace Verif

theorem u32sub_lt (a b : Nat) : u32sub a b < 2 ^ 32 := Nat.mod_lt _ (by omega)

theorem u32_add_sub {v prev : Nat} (hv : v < 2 ^ 32) (hp : prev < 2 ^ 32) :
    u32 (prev + u32sub v prev) = v := by
  unfold u32 u32sub; omega

theorem varIntEncodeTotal_eq (l : List Nat) (prev : Nat) :
    varIntEncodeTotal l prev = (varIntEncode l prev).length := by
  induction l generalizing prev with
  | nil => rfl
  | cons v vs ih => simp [varIntEncodeTotal, varIntEncode, ih]

theorem varIntEncode_append (l l' : List Nat) (prev : Nat) :
    varIntEncode (l ++ l') prev = varIntEncode l prev ++ varIntEncode l' (l.getLastD prev) := by
  induction l generalizing prev with
  | nil => rfl
  | cons v vs ih =>
    simp only [List.cons_append, varIntEncode, ih, List.append_assoc]
    cases vs <;> simp [List.getLastD]

theorem varIntDecode_enc {buf : List UInt8} {l : List Nat} : ∀ {i prev : Nat} {rest : List UInt8}
    {old : List Nat}, (∀ x ∈ l, x < 2 ^ 32) → prev < 2 ^ 32 → old.length = l.length →
    buf.drop i = varIntEncode l prev ++ rest →
    varIntDecode ⟨buf, i⟩ old prev
      = ⟨l.length, none, l, ⟨buf, i + (varIntEncode l prev).length⟩⟩ := by
  induction l with
  | nil =>
    intro i prev rest old _ _ ho _
    have : old = [] := by cases old <;> simp_all
    subst this; simp [varIntDecode, varIntEncode]
  | cons v vs ih =>
    intro i prev rest old hl hp ho hd
    obtain ⟨o, os, rfl⟩ : ∃ o os, old = o :: os := by cases old <;> simp_all
    simp only [varIntEncode, List.append_assoc] at hd
    have hv : v < 2 ^ 32 := hl v (by simp)
    have h1 := readVUInt32_enc (u32sub_lt v prev) hd
    have h2 := drop_add_of_drop hd
    simp only [varIntDecode, h1, u32_add_sub hv hp]
    rw [ih (fun x hx => hl x (by simp [hx])) hv (by simpa using ho) h2]
    simp [varIntEncode, Nat.add_assoc]

theorem varIntEncode_length_le (l : List Nat) (prev : Nat) :
    (varIntEncode l prev).length ≤ 5 * l.length := by
  induction l generalizing prev with
  | nil => simp [varIntEncode]
  | cons v vs ih =>
    have := (encVUInt32_length (u32sub_lt v prev)).2
    have := ih v
    simp [varIntEncode]; omega

/-! ### binary -/

theorem binEncode_snd (l : List Nat) : (binEncode l).2 = 4 * l.length := by
  induction l with
  | nil => rfl
  | cons v vs ih => simp [binEncode, encUInt32] at *; omega

theorem binEncode_fst_length (l : List Nat) : (binEncode l).1.length = 4 * l.length := by
  induction l with
  | nil => rfl
  | cons v vs ih =>
    simp only [binEncode, List.map_cons, List.flatten_cons, List.length_append,
      encUInt32_length, List.length_cons] at *
    omega

theorem binDecode_enc {buf : List UInt8} {l : List Nat} : ∀ {i : Nat} {rest : List UInt8}
    {old : List Nat}, (∀ x ∈ l, x < 2 ^ 32) → old.length = l.length →
    buf.drop i = (binEncode l).1 ++ rest →
    binDecode ⟨buf, i⟩ old = ⟨l.length, none, l, ⟨buf, i + 4 * l.length⟩⟩ := by
  induction l with
  | nil =>
    intro i rest old _ ho _
    have : old = [] := by cases old <;> simp_all
    subst this; simp [binDecode]
  | cons v vs ih =>
    intro i rest old hl ho hd
    obtain ⟨o, os, rfl⟩ : ∃ o os, old = o :: os := by cases old <;> simp_all
    have hd' : buf.drop i = encUInt32 v ++ ((binEncode vs).1 ++ rest) := by
      rw [hd]; simp [binEncode]
    have h1 := readUInt32_enc (hl v (by simp)) hd'
    have h2 := drop_add_of_drop hd'
    rw [encUInt32_length] at h2
    simp only [binDecode, h1]
    rw [ih (fun x hx => hl x (by simp [hx])) (by simpa using ho) h2]
    simp; omega

/-- Decoding into a buffer longer than the encoded list: the list, then whatever the bytes after it decode to. -/
theorem varIntDecode_enc_append {buf : List UInt8} {l : List Nat} : ∀ {i prev : Nat} {rest : List UInt8}
    {old more : List Nat}, (∀ x ∈ l, x < 2 ^ 32) → prev < 2 ^ 32 → old.length = l.length →
    buf.drop i = varIntEncode l prev ++ rest →
    ∃ last, varIntDecode ⟨buf, i⟩ (old ++ more) prev
      = ⟨(varIntDecode ⟨buf, i + (varIntEncode l prev).length⟩ more last).n + l.length,
         (varIntDecode ⟨buf, i + (varIntEncode l prev).length⟩ more last).err,
         l ++ (varIntDecode ⟨buf, i + (varIntEncode l prev).length⟩ more last).buf,
         (varIntDecode ⟨buf, i + (varIntEncode l prev).length⟩ more last).inp⟩ := by
  induction l with
  | nil =>
    intro i prev rest old more _ _ ho _
    have : old = [] := by cases old <;> simp_all
    subst this; exact ⟨prev, by simp [varIntEncode]⟩
  | cons v vs ih =>
    intro i prev rest old more hl hp ho hd
    obtain ⟨o, os, rfl⟩ : ∃ o os, old = o :: os := by cases old <;> simp_all
    simp only [varIntEncode, List.append_assoc] at hd
    have hv : v < 2 ^ 32 := hl v (by simp)
    have h1 := readVUInt32_enc (u32sub_lt v prev) hd
    have h2 := drop_add_of_drop hd
    obtain ⟨last, h3⟩ := ih (more := more) (fun x hx => hl x (by simp [hx])) hv (by simpa using ho) h2
    refine ⟨last, ?_⟩
    simp only [List.cons_append, varIntDecode, h1, u32_add_sub hv hp]
    rw [h3]
    simp [varIntEncode, Nat.add_assoc]

/-- Reading past the end. -/
theorem readVUInt32_end {buf : List UInt8} {i : Nat} (h : buf.length ≤ i) :
    BytesInput.readVUInt32 ⟨buf, i⟩ = (.error .u32Overflow, ⟨buf, i⟩) := by
  unfold BytesInput.readVUInt32; rw [if_pos h]

/-- Reading a value of which only the first `k` bytes are there. -/
theorem readVUInt32_cut {buf : List UInt8} {i v k : Nat} (hv : v < 2 ^ 32) (h0 : 0 < k)
    (hk : k < (encVUInt32 v).length) (hd : buf.drop i = (encVUInt32 v).take k) :
    BytesInput.readVUInt32 ⟨buf, i⟩ = (.error .unexpectedEOF, ⟨buf, i⟩) := by
  obtain ⟨pre, t, he, hp, ht, hl, hn⟩ := encVUInt32_spec v
  have h5 := (encVUInt32_length hv).2
  rw [he] at hd hk h5
  have hk' : k ≤ pre.length := by simp at hk; omega
  rw [List.take_append_of_le_length hk'] at hd
  have hlen : buf.length - i = k := by
    have := congrArg List.length hd; simpa [Nat.min_eq_left hk'] using this
  have hhigh : ∀ b ∈ buf.drop i, 128 ≤ b.toNat := fun b hb => hp b (List.mem_of_mem_take (hd ▸ hb))
  have hs : BytesInput.slowLoop buf 5 0 i 0 = .error .unexpectedEOF :=
    BytesInput.slowLoop_eof hhigh (by simp at h5; simp; omega)
  have hi : i < buf.length := by omega
  have hdc : buf.drop i = buf[i] :: buf.drop (i + 1) := List.drop_eq_getElem_cons hi
  have hb := byteAt_of_drop (k := 0) (b := buf[i]) hdc (by simp)
  rw [Nat.add_zero] at hb
  have h128 : ¬ buf[i].toNat < 128 := by
    have := hhigh buf[i] (by rw [hdc]; exact List.mem_cons_self); omega
  unfold BytesInput.readVUInt32
  rw [if_neg (by simp; omega)]
  simp only [hb, h128, if_false]
  rw [if_pos (by simp at h5; omega), BytesInput.readVUInt32Slow]
  simp only [hs]

/-- The same for fixed-width decoding. -/
theorem binDecode_enc_append {buf : List UInt8} {l : List Nat} : ∀ {i : Nat} {rest : List UInt8}
    {old more : List Nat}, (∀ x ∈ l, x < 2 ^ 32) → old.length = l.length →
    buf.drop i = (binEncode l).1 ++ rest →
    binDecode ⟨buf, i⟩ (old ++ more) = ⟨(binDecode ⟨buf, i + 4 * l.length⟩ more).n + l.length,
      (binDecode ⟨buf, i + 4 * l.length⟩ more).err, l ++ (binDecode ⟨buf, i + 4 * l.length⟩ more).buf,
      (binDecode ⟨buf, i + 4 * l.length⟩ more).inp⟩ := by
  induction l with
  | nil =>
    intro i rest old more _ ho _
    have : old = [] := by cases old <;> simp_all
    subst this; simp
  | cons v vs ih =>
    intro i rest old more hl ho hd
    obtain ⟨o, os, rfl⟩ : ∃ o os, old = o :: os := by cases old <;> simp_all
    have hd' : buf.drop i = encUInt32 v ++ ((binEncode vs).1 ++ rest) := by
      rw [hd]; simp [binEncode]
    have h1 := readUInt32_enc (hl v (by simp)) hd'
    have h2 := drop_add_of_drop hd'
    rw [encUInt32_length] at h2
    have e : i + 4 * (v :: vs).length = i + 4 + 4 * vs.length := by simp; omega
    rw [e]
    simp only [List.cons_append, binDecode, h1]
    rw [ih (fun x hx => hl x (by simp [hx])) (by simpa using ho) h2]
    simp [Nat.add_assoc]

/-! ### skipping -/

theorem or_lastBlockFlag {n : Nat} (h : n < 2 ^ 15) : n ||| lastBlockFlag = 2 ^ 15 + n := by
  have := Nat.two_pow_add_eq_or_of_lt (i := 15) (b := n) h 1
  unfold lastBlockFlag
  rw [Nat.or_comm, show (1 <<< 15 : Nat) = 2 ^ 15 * 1 by decide, ← this]
  omega

theorem and_lastBlockFlag (n : Nat) (h : n < 2 ^ 15) : n &&& lastBlockFlag = 0 := by
  apply Nat.eq_of_testBit_eq
  intro i
  rw [Nat.testBit_and, show lastBlockFlag = 2 ^ 15 by decide, Nat.testBit_two_pow]
  by_cases hi : 15 = i
  · subst hi; rw [Nat.testBit_lt_two_pow h]; simp
  · simp [hi]

theorem and_lastBlockFlag' (n : Nat) (h : n < 2 ^ 15) :
    (2 ^ 15 + n) &&& lastBlockFlag = lastBlockFlag := by
  rw [← or_lastBlockFlag h, Nat.and_comm]
  apply Nat.eq_of_testBit_eq
  intro i
  rw [Nat.testBit_and, Nat.testBit_or]
  cases (lastBlockFlag.testBit i) <;> simp

/-- Header word of a block whose code has `m` bytes. -/
def blockHeader (m : Nat) (last : Bool) : Nat := if last then 2 ^ 15 + (m + 2) else m + 2

theorem unpackPos_blockHeader {m : Nat} (h : m + 2 < 2 ^ 15) (last : Bool) :
    unpackPos (blockHeader m last) = (m + 2, last) := by
  have h15 : lastBlockFlag - 1 = 2 ^ 15 - 1 := by decide
  unfold unpackPos blockHeader
  rw [h15, Nat.and_two_pow_sub_one_eq_mod]
  cases last
  · simp only [Bool.false_eq_true, if_false]
    rw [and_lastBlockFlag _ h, Nat.mod_eq_of_lt h]
    rfl
  · simp only [if_true]
    rw [and_lastBlockFlag' _ h]
    have : (2 ^ 15 + (m + 2)) % 2 ^ 15 = m + 2 := by omega
    rw [this]; simp

/-- The bytes of a skip-encoded list, as a plain recursion on blocks. -/
def skipBytes (g : Nat) (l : List Nat) (prev : Nat) : List UInt8 :=
  match _h : l with
  | [] => []
  | x :: xs =>
    let block := (x :: xs).take (g + 1)
    let rest := (x :: xs).drop (g + 1)
    encUInt16 (blockHeader (varIntEncode block prev).length rest.isEmpty) ++
      varIntEncode block prev ++ skipBytes g rest x
termination_by l.length
decreasing_by simp; omega

theorem skipBytes_nil (g prev : Nat) : skipBytes g [] prev = [] := by
  rw [skipBytes]

theorem skipBytes_cons (g : Nat) (x : Nat) (xs : List Nat) (prev : Nat) :
    skipBytes g (x :: xs) prev =
      encUInt16 (blockHeader (varIntEncode ((x :: xs).take (g + 1)) prev).length
        ((x :: xs).drop (g + 1)).isEmpty) ++
      varIntEncode ((x :: xs).take (g + 1)) prev ++ skipBytes g ((x :: xs).drop (g + 1)) x := by
  rw [skipBytes]

theorem block_len_bound {g : Nat} (hg : g + 1 < maxSkippingGap) (l : List Nat) (prev : Nat) :
    (varIntEncode (l.take (g + 1)) prev).length + 2 < 2 ^ 14 := by
  have h1 := varIntEncode_length_le (l.take (g + 1)) prev
  have h2 : (l.take (g + 1)).length ≤ g + 1 := by simp
  have h3 : maxSkippingGap = 3276 := by decide
  omega

theorem skipEncLoop_eq {g : Nat} (hg : g + 1 < maxSkippingGap) :
    ∀ {fuel : Nat} {l : List Nat} {prev : Nat}, l.length ≤ fuel →
    skipEncLoop (g + 1) fuel l prev = some (skipBytes g l prev, (skipBytes g l prev).length) := by
  intro fuel
  induction fuel with
  | zero =>
    intro l prev h
    have : l = [] := by cases l <;> simp_all
    subst this; simp [skipEncLoop, skipBytes_nil]
  | succ fuel ih =>
    intro l prev h
    cases l with
    | nil => simp [skipEncLoop, skipBytes_nil]
    | cons x xs =>
      rw [skipEncLoop, skipBytes_cons]
      rw [ih (by simp at h ⊢; omega)]
      have htake : (x :: xs).take (min (g + 1) (x :: xs).length) = (x :: xs).take (g + 1) := by
        rcases Nat.le_total (g + 1) (x :: xs).length with h1 | h1
        · rw [Nat.min_eq_left h1]
        · rw [Nat.min_eq_right h1, List.take_of_length_le (Nat.le_refl _),
            List.take_of_length_le h1]
      rw [htake, varIntEncodeTotal_eq]
      have hb := block_len_bound hg (x :: xs) prev
      have hhdr : (if min (g + 1) (x :: xs).length = (x :: xs).length
            then (varIntEncode ((x :: xs).take (g + 1)) prev).length + 2 ||| lastBlockFlag
            else (varIntEncode ((x :: xs).take (g + 1)) prev).length + 2) % 2 ^ 16
          = blockHeader (varIntEncode ((x :: xs).take (g + 1)) prev).length
              ((x :: xs).drop (g + 1)).isEmpty := by
        unfold blockHeader
        by_cases hle : (x :: xs).length ≤ g + 1
        · rw [if_pos (Nat.min_eq_right hle), or_lastBlockFlag (by omega)]
          have : ((x :: xs).drop (g + 1)).isEmpty = true := by
            rw [List.drop_eq_nil_of_le hle]; rfl
          rw [this, if_pos rfl, Nat.mod_eq_of_lt (by omega)]
        · rw [if_neg (by rw [Nat.min_eq_left (by omega)]; omega)]
          have : ((x :: xs).drop (g + 1)).isEmpty = false := by
            rw [List.isEmpty_eq_false_iff, ne_eq, List.drop_eq_nil_iff]; exact hle
          rw [this]
          simp only [Bool.false_eq_true, if_false]
          rw [Nat.mod_eq_of_lt (by omega)]
      rw [hhdr]
      simp [encUInt16_length]; omega

theorem blockHeader_lt {m : Nat} (h : m + 2 < 2 ^ 14) (last : Bool) : blockHeader m last < 2 ^ 16 := by
  unfold blockHeader; split <;> omega

theorem skipDecLoop_enc {g : Nat} (hg : g + 1 < maxSkippingGap) {buf : List UInt8} :
    ∀ {fuel : Nat} {l : List Nat} {i prev : Nat} {rest : List UInt8} {old : List Nat},
    l.length ≤ fuel → (∀ x ∈ l, x < 2 ^ 32) → prev < 2 ^ 32 → old.length = l.length →
    buf.drop i = skipBytes g l prev ++ rest →
    skipDecLoop (g + 1) fuel ⟨buf, i⟩ old prev
      = some ⟨(g + 1) * ((l.length + g) / (g + 1)), none, l,
          ⟨buf, i + (skipBytes g l prev).length⟩⟩ := by
  intro fuel
  induction fuel with
  | zero =>
    intro l i prev rest old h _ _ ho _
    have : l = [] := by cases l <;> simp_all
    subst this
    have : old = [] := by cases old <;> simp_all
    subst this
    simp [skipDecLoop, skipBytes_nil]
  | succ fuel ih =>
    intro l i prev rest old h hl hp ho hd
    cases l with
    | nil =>
      have : old = [] := by cases old <;> simp_all
      subst this
      simp [skipDecLoop, skipBytes_nil]
    | cons x xs =>
      obtain ⟨o, os, rfl⟩ : ∃ o os, old = o :: os := by cases old <;> simp_all
      rw [skipBytes_cons, List.append_assoc, List.append_assoc] at hd
      have hb := block_len_bound hg (x :: xs) prev
      have h16 := readUInt16_enc (blockHeader_lt hb _) hd
      have hd2 := drop_add_of_drop hd
      rw [encUInt16_length] at hd2
      rw [skipDecLoop]
      simp only [h16]
      have hmin : ((o :: os).take (min (g + 1) (o :: os).length)) = (o :: os).take (g + 1) := by
        rcases Nat.le_total (g + 1) (o :: os).length with h1 | h1
        · rw [Nat.min_eq_left h1]
        · rw [Nat.min_eq_right h1, List.take_of_length_le (Nat.le_refl _),
            List.take_of_length_le h1]
      have hdrop : ((o :: os).drop (min (g + 1) (o :: os).length)) = (o :: os).drop (g + 1) := by
        rcases Nat.le_total (g + 1) (o :: os).length with h1 | h1
        · rw [Nat.min_eq_left h1]
        · rw [Nat.min_eq_right h1, List.drop_of_length_le (Nat.le_refl _),
            List.drop_of_length_le h1]
      have hdec := varIntDecode_enc (old := (o :: os).take (g + 1))
        (l := (x :: xs).take (g + 1)) (fun y hy => hl y (List.mem_of_mem_take hy)) hp
        (by rw [List.length_take, List.length_take, ho]) hd2
      rw [hmin, hdrop, hdec]
      simp only
      have hhead : ((x :: xs).take (g + 1)).headD o = x := by simp
      rw [hhead]
      have hd3 := drop_add_of_drop hd2
      have hrec := ih (l := (x :: xs).drop (g + 1)) (old := (o :: os).drop (g + 1)) (prev := x)
        (by simp at h ⊢; omega) (fun y hy => hl y (List.mem_of_mem_drop hy))
        (hl x (by simp)) (by rw [List.length_drop, List.length_drop, ho]) hd3
      rw [hrec]
      simp only [List.take_append_drop, skipBytes_cons, List.length_append, encUInt16_length]
      congr 2
      · rw [List.length_drop]
        by_cases hle : (x :: xs).length ≤ g + 1
        · have e1 : ((x :: xs).length - (g + 1) + g) / (g + 1) = 0 := by
            apply Nat.div_eq_of_lt; omega
          have e2 : ((x :: xs).length + g) / (g + 1) = 1 := by
            have : (x :: xs).length + g = ((x :: xs).length - 1) + (g + 1) := by simp; omega
            rw [this, Nat.add_div_right _ (by omega), Nat.div_eq_of_lt (by simp at hle ⊢; omega)]
          rw [e1, e2]; omega
        · have : (x :: xs).length + g = ((x :: xs).length - (g + 1) + g) + (g + 1) := by omega
          rw [this, Nat.add_div_right _ (by omega)]
          ring
      · congr 1; omega

end Verif
