import Verif.Proofs.Compression
/-!
Property theorems C03–C06 (pkg/compression).
-/
namespace Verif.Props
open Verif

/-- **C03** VB round trip: decoding into a buffer (of any old contents) as long as the list restores
the list, reports its length, no error, and consumes exactly the bytes written. -/
theorem C03_vb_roundtrip (l old : List Nat) (before after : List UInt8)
    (hl : ∀ x ∈ l, x < 2 ^ 32) (ho : old.length = l.length) :
    vbDecode ⟨before ++ (vbEncode l).1 ++ after, before.length⟩ old
      = ⟨l.length, none, l, ⟨before ++ (vbEncode l).1 ++ after, before.length + (vbEncode l).2⟩⟩ := by
  have := varIntDecode_enc (buf := before ++ (vbEncode l).1 ++ after) (i := before.length)
    (prev := 0) (rest := after) (old := old) hl (by omega) ho (by simp [vbEncode])
  rw [vbDecode, this]
  simp [vbEncode, varIntEncodeTotal_eq]

/-- **C03** the number reported by `Encode` is the number of bytes written, at most 5 per element. -/
theorem C03_vb_count (l : List Nat) :
    (vbEncode l).2 = (vbEncode l).1.length ∧ (vbEncode l).1.length ≤ 5 * l.length :=
  ⟨varIntEncodeTotal_eq l 0, varIntEncode_length_le l 0⟩

/-- **C03** decoding into a shorter buffer restores the corresponding prefix. -/
theorem C03_vb_prefix (l l' old : List Nat) (before after : List UInt8)
    (hl : ∀ x ∈ l ++ l', x < 2 ^ 32) (ho : old.length = l.length) :
    (vbDecode ⟨before ++ (vbEncode (l ++ l')).1 ++ after, before.length⟩ old).buf = l := by
  have := varIntDecode_enc (buf := before ++ (vbEncode (l ++ l')).1 ++ after) (i := before.length)
    (prev := 0) (l := l) (rest := varIntEncode l' (l.getLastD 0) ++ after) (old := old)
    (fun x hx => hl x (by simp [hx])) (by omega) ho (by simp [vbEncode, varIntEncode_append])
  rw [vbDecode, this]

/-- **C03** does not extend to decoding "as much as there is" into a longer buffer, although the decoder has a test for
the end of the input: at a clean end all the values are delivered and counted, the rest of the buffer is untouched, but an
overflow error is reported … -/
theorem C03_longer_buffer_wrong (l old : List Nat) (before : List UInt8)
    (hl : ∀ x ∈ l, x < 2 ^ 32) (ho : l.length < old.length) :
    vbDecode ⟨before ++ (vbEncode l).1, before.length⟩ old
      = ⟨l.length, some .u32Overflow, l ++ old.drop l.length,
          ⟨before ++ (vbEncode l).1, before.length + (vbEncode l).2⟩⟩ := by
  obtain ⟨last, h⟩ := varIntDecode_enc_append (buf := before ++ (vbEncode l).1) (i := before.length) (prev := 0)
    (rest := []) (old := old.take l.length) (more := old.drop l.length) hl (by omega)
    (by simp; omega) (by simp [vbEncode])
  rw [List.take_append_drop] at h
  obtain ⟨o, os, hm⟩ : ∃ o os, old.drop l.length = o :: os := by
    cases hm : old.drop l.length with
    | nil => have := congrArg List.length hm; simp at this; omega
    | cons o os => exact ⟨o, os, rfl⟩
  rw [vbDecode, h, hm, varIntDecode, readVUInt32_end (by simp [vbEncode])]
  simp [vbEncode, varIntEncodeTotal_eq]

/-- … and when the input ends inside a value the decoder reports no error: the value is silently missing. -/
theorem C03_cut_value_silent (l old : List Nat) (v k : Nat) (before : List UInt8) (hl : ∀ x ∈ l, x < 2 ^ 32)
    (hv : v < 2 ^ 32) (h0 : 0 < k) (hk : k < (encVUInt32 v).length) (ho : l.length < old.length) :
    vbDecode ⟨before ++ (vbEncode l).1 ++ (encVUInt32 v).take k, before.length⟩ old
      = ⟨l.length, none, l ++ old.drop l.length,
          ⟨before ++ (vbEncode l).1 ++ (encVUInt32 v).take k, before.length + (vbEncode l).2⟩⟩ := by
  obtain ⟨last, h⟩ := varIntDecode_enc_append (buf := before ++ (vbEncode l).1 ++ (encVUInt32 v).take k)
    (i := before.length) (prev := 0)
    (rest := (encVUInt32 v).take k) (old := old.take l.length) (more := old.drop l.length) hl (by omega)
    (by simp; omega) (by simp [vbEncode])
  rw [List.take_append_drop] at h
  obtain ⟨o, os, hm⟩ : ∃ o os, old.drop l.length = o :: os := by
    cases hm : old.drop l.length with
    | nil => have := congrArg List.length hm; simp at this; omega
    | cons o os => exact ⟨o, os, rfl⟩
  rw [vbDecode, h, hm, varIntDecode, readVUInt32_cut hv h0 hk (by simp [vbEncode])]
  simp [vbEncode, varIntEncodeTotal_eq]

/-- Two bytes of the three of the difference 70000 are there. -/
example : vbDecode ⟨(vbEncode [5, 9]).1 ++ (encVUInt32 70000).take 2, 0⟩ [0, 0, 0]
    = ⟨2, none, [5, 9, 0], ⟨[5, 4, 240, 162], 2⟩⟩ := by decide +kernel

example : (∀ x ∈ [824, 829, 2 ^ 32 - 1, 7], x < 2 ^ 32) ∧ [0, 0, 0, 0].length = [824, 829, 2 ^ 32 - 1, 7].length := by
  decide

/-- **C04** Skipping round trip for every accepted gap ≥ 1 and every list with at least `gap`
elements (any number of loop iterations ≥ the length suffices). -/
theorem C04_skipping_roundtrip (gap : Nat) (l old : List Nat) (before after : List UInt8) (fuel : Nat)
    (h1 : 1 ≤ gap) (hacc : skippingNew gap = .ok gap) (hlen : gap ≤ l.length)
    (hl : ∀ x ∈ l, x < 2 ^ 32) (ho : old.length = l.length) (hf : l.length ≤ fuel) :
    ∃ bytes total d, skipEncode gap fuel l = some (.ok (bytes, total)) ∧ total = bytes.length ∧
      skipDecode gap fuel ⟨before ++ bytes ++ after, before.length⟩ old = some d ∧
      d.err = none ∧ d.buf = l ∧
      d.inp = ⟨before ++ bytes ++ after, before.length + bytes.length⟩ := by
  obtain ⟨g, rfl⟩ : ∃ g, gap = g + 1 := ⟨gap - 1, by omega⟩
  have hg : g + 1 < maxSkippingGap := by
    unfold skippingNew at hacc
    split at hacc
    · simp at hacc
    · omega
  have henc : skipEncode ((g + 1 : Nat) : Int) fuel l
      = some (.ok (skipBytes g l 0, (skipBytes g l 0).length)) := by
    unfold skipEncode
    rw [if_neg (by omega), if_neg (by omega), Int.toNat_natCast, skipEncLoop_eq hg hf]
    rfl
  have hdec := skipDecLoop_enc hg (buf := before ++ skipBytes g l 0 ++ after) (i := before.length)
    (prev := 0) (rest := after) (old := old) hf hl (by omega) ho (by simp)
  exact ⟨_, _, _, henc, rfl, by rw [skipDecode, hdec]; rfl, rfl, rfl, rfl⟩

/-- **C04** lists shorter than the gap are rejected, nothing is written. -/
theorem C04_short_list_rejected (gap : Int) (fuel : Nat) (l : List Nat) (h : (l.length : Int) < gap) :
    skipEncode gap fuel l = some (.error .gapTooBig) := by
  unfold skipEncode; rw [if_pos h]

/-- **C04** does not extend to the other gaps `SkippingEncoder` accepts: a gap of 0 is accepted and
`Encode` of a nonempty list never returns … -/
theorem C04_gap_zero_diverges (x : Nat) (l : List Nat) (fuel : Nat) :
    skippingNew 0 = .ok 0 ∧ skipEncode 0 fuel (x :: l) = none := by
  refine ⟨by decide, ?_⟩
  unfold skipEncode
  rw [if_neg (by simp; omega), if_neg (by omega)]
  have : ∀ fuel prev, skipEncLoop 0 fuel (x :: l) prev = none := by
    intro fuel
    induction fuel with
    | zero => intro prev; rfl
    | succ fuel ih => intro prev; rw [skipEncLoop]; simp [ih]
  simp [this]

/-- … and a negative gap is accepted and panics. -/
theorem C04_gap_negative_panics (gap : Int) (h : gap < 0) (l : List Nat) (fuel : Nat) :
    skippingNew gap = .ok gap ∧ skipEncode gap fuel l = some (.error .panicMake) := by
  have : maxSkippingGap = 3276 := by decide
  refine ⟨by unfold skippingNew; rw [if_neg (by omega)], ?_⟩
  unfold skipEncode; rw [if_neg (by omega), if_pos h]

example : skippingNew 64 = .ok 64 ∧ skippingNew 3275 = .ok 3275 ∧ skippingNew 3276 = .error .gapOverflow := by
  decide
example : (skipEncode 3 9 [1, 13, 29, 101, 506, 10003, 10004, 12000, 12901]).isSome := by
  decide +kernel

/-- **C05** (partial) the number reported by the skipping `Decode` is the length rounded up to a
multiple of the gap; it is the number of decoded elements exactly when the gap divides it.
Missing: the full claim (`d.n = l.length` always), which is false — see `C05_count_wrong`. -/
theorem C05_skipping_count_partial (gap : Nat) (l old : List Nat) (before after : List UInt8) (fuel : Nat)
    (h1 : 1 ≤ gap) (hacc : skippingNew gap = .ok gap) (hlen : gap ≤ l.length)
    (hl : ∀ x ∈ l, x < 2 ^ 32) (ho : old.length = l.length) (hf : l.length ≤ fuel) :
    ∃ bytes total d, skipEncode gap fuel l = some (.ok (bytes, total)) ∧
      skipDecode gap fuel ⟨before ++ bytes ++ after, before.length⟩ old = some d ∧
      d.n = gap * ((l.length + (gap - 1)) / gap) ∧ (d.n = l.length ↔ gap ∣ l.length) := by
  obtain ⟨g, rfl⟩ : ∃ g, gap = g + 1 := ⟨gap - 1, by omega⟩
  have hg : g + 1 < maxSkippingGap := by
    unfold skippingNew at hacc
    split at hacc
    · simp at hacc
    · omega
  have henc : skipEncode ((g + 1 : Nat) : Int) fuel l
      = some (.ok (skipBytes g l 0, (skipBytes g l 0).length)) := by
    unfold skipEncode
    rw [if_neg (by omega), if_neg (by omega), Int.toNat_natCast, skipEncLoop_eq hg hf]
    rfl
  have hdec := skipDecLoop_enc hg (buf := before ++ skipBytes g l 0 ++ after) (i := before.length)
    (prev := 0) (rest := after) (old := old) hf hl (by omega) ho (by simp)
  refine ⟨_, _, _, henc, by rw [skipDecode, hdec]; rfl, by simp, ?_⟩
  constructor
  · intro h; simp at h; exact ⟨_, h.symm⟩
  · rintro ⟨k, hk⟩
    simp only [hk, Option.isSome_none, Bool.false_eq_true, if_false]
    have : ((g + 1) * k + g) / (g + 1) = k := by
      rw [Nat.mul_add_div (by omega), Nat.div_eq_of_lt (by omega)]; omega
    rw [this]

/-- **C05** is false: four elements with gap 3 are reported as six. -/
theorem C05_count_wrong : ∃ bytes total d,
    skipEncode 3 4 [1, 2, 3, 4] = some (.ok (bytes, total)) ∧
    skipDecode 3 4 ⟨bytes, 0⟩ [0, 0, 0, 0] = some d ∧ d.err = none ∧ d.buf = [1, 2, 3, 4] ∧ d.n = 6 :=
  ⟨[5, 0, 1, 1, 1, 3, 128, 3], 8, ⟨6, none, [1, 2, 3, 4], ⟨[5, 0, 1, 1, 1, 3, 128, 3], 8⟩⟩,
    by decide +kernel, by decide +kernel, rfl, rfl, rfl⟩

/-- **C06** fixed-width round trip. -/
theorem C06_binary_roundtrip (l old : List Nat) (before after : List UInt8)
    (hl : ∀ x ∈ l, x < 2 ^ 32) (ho : old.length = l.length) :
    binDecode ⟨before ++ (binEncode l).1 ++ after, before.length⟩ old
      = ⟨l.length, none, l, ⟨before ++ (binEncode l).1 ++ after, before.length + 4 * l.length⟩⟩ :=
  binDecode_enc (rest := after) hl ho (by simp)

/-- **C06** four bytes are written, and reported, per element. -/
theorem C06_binary_count (l : List Nat) :
    (binEncode l).1.length = 4 * l.length ∧ (binEncode l).2 = 4 * l.length :=
  ⟨binEncode_fst_length l, binEncode_snd l⟩

/-- **C06** does not extend to a buffer longer than the list: the values are delivered and counted, but an error is
reported at the clean end of the input. -/
theorem C06_longer_buffer_wrong (l old : List Nat) (before : List UInt8)
    (hl : ∀ x ∈ l, x < 2 ^ 32) (ho : l.length < old.length) :
    binDecode ⟨before ++ (binEncode l).1, before.length⟩ old
      = ⟨l.length, some .unexpectedEOF, l ++ old.drop l.length,
          ⟨before ++ (binEncode l).1, before.length + 4 * l.length⟩⟩ := by
  have h := binDecode_enc_append (buf := before ++ (binEncode l).1) (i := before.length) (rest := [])
    (old := old.take l.length) (more := old.drop l.length) hl (by simp; omega) (by simp)
  rw [List.take_append_drop] at h
  obtain ⟨o, os, hm⟩ : ∃ o os, old.drop l.length = o :: os := by
    cases hm : old.drop l.length with
    | nil => have := congrArg List.length hm; simp at this; omega
    | cons o os => exact ⟨o, os, rfl⟩
  have he : BytesInput.readUInt32 ⟨before ++ (binEncode l).1, before.length + 4 * l.length⟩
      = (.error .unexpectedEOF, ⟨before ++ (binEncode l).1, before.length + 4 * l.length⟩) := by
    unfold BytesInput.readUInt32
    have := binEncode_fst_length l
    rw [if_pos (by simp; omega)]
  rw [h, hm, binDecode, he]
  simp

example : binDecode ⟨(binEncode [258]).1, 0⟩ [7, 7] = ⟨1, some .unexpectedEOF, [258, 7], ⟨[2, 1, 0, 0], 4⟩⟩ := by
  decide +kernel

example : (binEncode [258, 2 ^ 32 - 1]).1 = [2, 1, 0, 0, 255, 255, 255, 255] := by decide +kernel

end Verif.Props
