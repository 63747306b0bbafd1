import Verif.Model.StoreInt64
import Verif.Proofs.Store
/-!
Property theorems C01, C02, C07 (pkg/store).
-/
namespace Verif.Props
open Verif Verif.Spec

/-- **C01** Reading back a written variable-length `uint32` gives the value and consumes exactly
the written bytes, whatever precedes and follows it. -/
theorem C01_vuint32_roundtrip (v : Nat) (hv : v < 2 ^ 32) (before after : List UInt8) :
    BytesInput.readVUInt32 ⟨before ++ encVUInt32 v ++ after, before.length⟩
      = (.ok v, ⟨before ++ encVUInt32 v ++ after, before.length + (encVUInt32 v).length⟩) :=
  readVUInt32_enc hv (rest := after) (by simp)

/-- **C01** (size) between 1 and 5 bytes are written, so the 5-cell local array never overflows. -/
theorem C01_vuint32_size (v : Nat) (hv : v < 2 ^ 32) :
    1 ≤ (encVUInt32 v).length ∧ (encVUInt32 v).length ≤ 5 := encVUInt32_length hv

/-- **C01** (format) what is written is a well-formed LEB128 code of the value. -/
theorem C01_vuint32_format (v : Nat) : IsCode (encVUInt32 v) ∧ leb (encVUInt32 v) = v := by
  obtain ⟨pre, t, he, hp, ht, hl, -⟩ := encVUInt32_spec v
  exact ⟨⟨pre, t, he, hp, ht⟩, by rw [he, hl]⟩

example : encVUInt32 300 = [0xAC, 0x02] := by decide +kernel
example : (encVUInt32 (2 ^ 32 - 1)).length = 5 := by decide +kernel

/-- **C02** Complete specification of `ReadVUInt32` on arbitrary bytes: a code of at most five
bytes at the cursor is decoded modulo 2^32 and consumed. -/
theorem C02_readVUInt32_ok (before code after : List UInt8) (hc : IsCode code)
    (h5 : code.length ≤ 5) :
    BytesInput.readVUInt32 ⟨before ++ code ++ after, before.length⟩
      = (.ok (leb code % 2 ^ 32), ⟨before ++ code ++ after, before.length + code.length⟩) := by
  obtain ⟨pre, t, rfl, hp, ht⟩ := hc
  rw [BytesInput.readVUInt32_code hp ht (rest := after) (by simp) (by simp at h5; omega)]
  simp [Nat.add_assoc]

/-- **C02** In every other case it fails and leaves the input (data and cursor) unchanged. -/
theorem C02_readVUInt32_error (r : BytesInput)
    (h : ¬ ∃ code after, r.buf.drop r.i = code ++ after ∧ IsCode code ∧ code.length ≤ 5) :
    ∃ e, (e = Err.u32Overflow ∨ e = Err.unexpectedEOF) ∧
      BytesInput.readVUInt32 r = (.error e, r) := by
  by_cases hl : r.i < r.buf.length
  · rw [BytesInput.readVUInt32_eq_slow r hl]
    unfold BytesInput.readVUInt32Slow
    have key : ∀ e, BytesInput.slowLoop r.buf 5 0 r.i 0 = .error e →
        (match BytesInput.slowLoop r.buf 5 0 r.i 0 with
         | .ok (v, i) => ((.ok v, { r with i := i }) : Except Err Nat × BytesInput)
         | .error e => (.error e, r)) = (.error e, r) := by
      intro e he; rw [he]
    rcases BytesInput.split_code ((r.buf.drop r.i)) with ⟨pre, t, rest, hd, hp, ht⟩ | hall
    · by_cases h5 : pre.length < 5
      · exact absurd ⟨pre ++ [t], rest, by simpa using hd, ⟨pre, t, rfl, hp, ht⟩,
          by simp; omega⟩ h
      · refine ⟨.u32Overflow, .inl rfl, key _ (BytesInput.slowLoop_overflow ?_ ?_)⟩
        · rw [hd, List.take_append_of_le_length (by omega)]
          intro b hb; exact hp b (List.mem_of_mem_take hb)
        · rw [hd]; simp; omega
    · by_cases h5 : (r.buf.drop r.i).length < 5
      · exact ⟨.unexpectedEOF, .inr rfl, key _ (BytesInput.slowLoop_eof hall h5)⟩
      · exact ⟨.u32Overflow, .inl rfl, key _ (BytesInput.slowLoop_overflow
          (fun b hb => hall b (List.mem_of_mem_take hb)) (by omega))⟩
  · refine ⟨.u32Overflow, .inl rfl, ?_⟩
    unfold BytesInput.readVUInt32
    rw [if_pos (by omega)]

/-- **C02** The unrolled path and the byte-at-a-time path agree on value, error and cursor wherever
the cursor is inside the data. -/
theorem C02_paths_agree (r : BytesInput) (h : r.i < r.buf.length) :
    BytesInput.readVUInt32 r = BytesInput.readVUInt32Slow r :=
  BytesInput.readVUInt32_eq_slow r h

example : IsCode [0xAC, 0x02] := ⟨[0xAC], 0x02, rfl, by decide, by decide⟩
example : BytesInput.readVUInt32 ⟨[1, 0xAC, 0x02, 9, 9, 9, 9], 1⟩
    = (.ok 300, ⟨[1, 0xAC, 0x02, 9, 9, 9, 9], 3⟩) := by decide +kernel
/-- a corrupt input meeting the hypothesis of `C02_readVUInt32_error` -/
example : ¬ ∃ code after, ([0xFF, 0xFF] : List UInt8).drop 1 = code ++ after ∧ IsCode code ∧
    code.length ≤ 5 := by
  rintro ⟨code, after, h, ⟨pre, t, rfl, -, ht⟩, -⟩
  have : t ∈ ([0xFF, 0xFF] : List UInt8).drop 1 := by rw [h]; simp
  simp at this; subst this; simp at ht

theorem ofNum_err_isPanic {x : Except Err Nat} {e : Err} (h : (InObs.ofNum x).err = some e) :
    x = .error e := by
  cases x <;> simp [InObs.ofNum] at h ⊢; exact h

/-- **C07** No operation on an input with any arguments panics. -/
theorem C07_no_panic (r : BytesInput) (op : InOp) (e : Err)
    (h : (r.step op).1.err = some e) : e.isPanic = false := by
  cases op with
  | read k =>
    simp only [BytesInput.step, BytesInput.read] at h
    split at h
    · rename_i h'; split at h' <;> simp at h
    · rename_i h'; split at h'
      · simp at h h'; rw [← h, ← h'.1]; rfl
      · simp at h'
  | readByte =>
    simp only [BytesInput.step] at h
    have h := ofNum_err_isPanic h
    unfold BytesInput.readByte at h
    split at h
    · simp at h; rw [← h]; rfl
    · rename_i hl
      simp only [BytesInput.byteAt, List.getElem?_eq_getElem (show r.i < r.buf.length by omega)] at h
      simp at h
  | readAt k off =>
    simp only [BytesInput.step, BytesInput.readAt] at h
    split at h
    · simp at h; rw [← h]; rfl
    · split at h
      · simp at h; rw [← h]; rfl
      · simp only at h
        split at h
        · simp at h; rw [← h]; rfl
        · simp at h
  | seek off w =>
    simp only [BytesInput.step] at h
    split at h
    · simp at h
    · rename_i h'
      simp at h
      unfold BytesInput.seek at h'
      simp only at h'
      split at h'
      · simp at h'; rw [← h, ← h'.1]; rfl
      · split at h'
        · simp at h'; rw [← h, ← h'.1]; rfl
        · simp at h'
  | readVUInt32 =>
    simp only [BytesInput.step] at h
    have h := ofNum_err_isPanic h
    by_cases hc : ∃ code after, r.buf.drop r.i = code ++ after ∧ IsCode code ∧ code.length ≤ 5
    · obtain ⟨code, after, hd, ⟨pre, t, rfl, hp, ht⟩, h5⟩ := hc
      have := BytesInput.readVUInt32_code (i := r.i) (buf := r.buf) hp ht (rest := after)
        (by simpa using hd) (by simp at h5; omega)
      rw [this] at h; simp at h
    · obtain ⟨e', he', hr⟩ := C02_readVUInt32_error r hc
      rw [hr] at h; simp at h
      rcases he' with rfl | rfl <;> (rw [← h]; rfl)
  | readUInt32 =>
    simp only [BytesInput.step] at h
    have h := ofNum_err_isPanic h
    unfold BytesInput.readUInt32 at h
    split at h
    · simp at h; rw [← h]; rfl
    · rename_i hl
      have : 4 ≤ (r.buf.drop r.i).length := by simp; omega
      match hm : r.buf.drop r.i, this with
      | b0 :: b1 :: b2 :: b3 :: _, _ => rw [hm] at h; simp [BytesInput.leUint32] at h
  | readUInt16 =>
    simp only [BytesInput.step] at h
    have h := ofNum_err_isPanic h
    unfold BytesInput.readUInt16 at h
    split at h
    · simp at h; rw [← h]; rfl
    · rename_i hl
      have : 2 ≤ (r.buf.drop r.i).length := by simp; omega
      match hm : r.buf.drop r.i, this with
      | b0 :: b1 :: _, _ => rw [hm] at h; simp [BytesInput.leUint16] at h

/-- **C07** No operation changes the data. -/
theorem C07_data_unchanged_step (r : BytesInput) (op : InOp) : (r.step op).2.buf = r.buf := by
  cases op <;> simp only [BytesInput.step]
  · unfold BytesInput.read; split <;> rename_i h <;> split at h <;> simp at h <;> rw [← h.2]
  · unfold BytesInput.readByte; split <;> rfl
  · unfold BytesInput.seek; simp only; split <;> rename_i h <;> split at h <;>
      (try split at h) <;> simp at h <;> rw [← h.2]
  · unfold BytesInput.readVUInt32 BytesInput.readVUInt32Slow
    repeat' split
    all_goals rfl
  · unfold BytesInput.readUInt32; split <;> rfl
  · unfold BytesInput.readUInt16; split <;> rfl

/-- **C07** … and neither does any history of operations, none of which panics. -/
theorem C07_history (r : BytesInput) (ops : List InOp) :
    (r.run ops).2.buf = r.buf ∧ ∀ o ∈ (r.run ops).1, ∀ e, o.err = some e → e.isPanic = false := by
  induction ops generalizing r with
  | nil => simp [BytesInput.run]
  | cons op ops ih =>
    obtain ⟨h1, h2⟩ := ih (r.step op).2
    refine ⟨by simp only [BytesInput.run]; rw [h1, C07_data_unchanged_step], ?_⟩
    intro o ho e he
    simp only [BytesInput.run, List.mem_cons] at ho
    rcases ho with rfl | ho
    · exact C07_no_panic r op e he
    · exact h2 o ho e he

/-- **C07** `ReadUInt32` returns exactly the four bytes at the cursor (little endian) and advances by
four, or fails and does not move. -/
theorem C07_readUInt32 (r : BytesInput) :
    (r.i + 4 ≤ r.buf.length ∧
      r.readUInt32 = (.ok (le ((r.buf.drop r.i).take 4)), ⟨r.buf, r.i + 4⟩)) ∨
    (r.buf.length < r.i + 4 ∧ r.readUInt32 = (.error .unexpectedEOF, r)) := by
  by_cases h : r.i + 4 ≤ r.buf.length
  · left
    refine ⟨h, ?_⟩
    have : 4 ≤ (r.buf.drop r.i).length := by simp; omega
    match hm : r.buf.drop r.i, this with
    | b0 :: b1 :: b2 :: b3 :: rest, _ => rw [readUInt32_bytes hm]; simp
  · right
    exact ⟨by omega, by unfold BytesInput.readUInt32; rw [if_pos (by omega)]⟩

/-- **C07** same for `ReadUInt16`. -/
theorem C07_readUInt16 (r : BytesInput) :
    (r.i + 2 ≤ r.buf.length ∧
      r.readUInt16 = (.ok (le ((r.buf.drop r.i).take 2)), ⟨r.buf, r.i + 2⟩)) ∨
    (r.buf.length < r.i + 2 ∧ r.readUInt16 = (.error .unexpectedEOF, r)) := by
  by_cases h : r.i + 2 ≤ r.buf.length
  · left
    refine ⟨h, ?_⟩
    have : 2 ≤ (r.buf.drop r.i).length := by simp; omega
    match hm : r.buf.drop r.i, this with
    | b0 :: b1 :: rest, _ => rw [readUInt16_bytes hm]; simp
  · right
    exact ⟨by omega, by unfold BytesInput.readUInt16; rw [if_pos (by omega)]⟩

/-- **C07** `Read` of `k` bytes returns the `min k remaining` bytes at the cursor and advances by
that much; at or past the end it reports EOF and does not move. -/
theorem C07_read (r : BytesInput) (k : Nat) :
    (r.i < r.buf.length ∧ r.read k =
      (.ok ((r.buf.drop r.i).take k), ⟨r.buf, r.i + min k (r.buf.length - r.i)⟩)) ∨
    (r.buf.length ≤ r.i ∧ r.read k = (.error .eof, r)) := by
  unfold BytesInput.read
  by_cases h : r.buf.length ≤ r.i
  · right; exact ⟨h, by rw [if_pos h]⟩
  · left; refine ⟨by omega, ?_⟩; rw [if_neg h]; simp

/-- **C07** `ReadByte` returns the byte at the cursor and advances by one, or reports EOF and does not move. -/
theorem C07_readByte (r : BytesInput) :
    (∃ b rest, r.buf.drop r.i = b :: rest ∧ r.readByte = (.ok b.toNat, ⟨r.buf, r.i + 1⟩)) ∨
    (r.buf.length ≤ r.i ∧ r.readByte = (.error .eof, r)) := by
  unfold BytesInput.readByte
  by_cases h : r.buf.length ≤ r.i
  · right; exact ⟨h, by rw [if_pos h]⟩
  · left
    rw [if_neg h]
    refine ⟨r.buf[r.i], r.buf.drop (r.i + 1), List.drop_eq_getElem_cons (by omega), ?_⟩
    simp [BytesInput.byteAt, List.getElem?_eq_getElem (show r.i < r.buf.length by omega)]

/-- **C07** `ReadAt(b, off)` copies the bytes at `off` that exist, at most `len(b) = k`, and reports EOF exactly when
there are fewer than `k`; a negative offset is an error and copies nothing. The input is not changed. -/
theorem C07_readAt (r : BytesInput) (k : Nat) (off : Int) :
    (off < 0 ∧ r.readAt k off = ([], some .negativeOffset)) ∨
    (∃ o : Nat, off = o ∧ (r.readAt k off).1 = (r.buf.drop o).take k ∧
      ((r.readAt k off).2 = none ∨ (r.readAt k off).2 = some .eof) ∧
      (0 < k → ((r.readAt k off).2 = none ↔ o + k ≤ r.buf.length))) := by
  unfold BytesInput.readAt
  by_cases h : off < 0
  · left; exact ⟨h, by rw [if_pos h]⟩
  · right
    obtain ⟨o, rfl⟩ : ∃ o : Nat, off = o := ⟨off.toNat, by omega⟩
    refine ⟨o, rfl, ?_⟩
    rw [if_neg h]
    by_cases h2 : (r.buf.length : Int) ≤ o
    · rw [if_pos h2]
      refine ⟨by rw [List.drop_eq_nil_of_le (by omega)]; simp, by simp, fun hk => ?_⟩
      simp; omega
    · rw [if_neg h2]
      simp only [Int.toNat_natCast]
      refine ⟨trivial, by split <;> simp, fun hk => ?_⟩
      have : ((r.buf.drop o).take k).length = min k (r.buf.length - o) := by simp
      split <;> rename_i hc <;> rw [this] at hc <;> simp <;> omega

example : (BytesInput.readByte ⟨[1, 2, 3], 1⟩).1 = .ok 2 ∧ BytesInput.readAt ⟨[1, 2, 3], 0⟩ 5 1 = ([2, 3], some .eof) := by
  decide +kernel

/-- **C07** `Seek` sets exactly the requested position or fails without moving; it never makes the
position negative. -/
theorem C07_seek (r : BytesInput) (off w : Int) :
    (∃ a : Nat, r.seek off w = (.ok a, ⟨r.buf, a⟩) ∧
      ((w = 0 ∧ (a : Int) = off) ∨ (w = 1 ∧ (a : Int) = r.i + off) ∨
        (w = 2 ∧ (a : Int) = r.buf.length + off))) ∨
    (∃ e, r.seek off w = (.error e, r) ∧
      (e = .invalidWhence ∧ w ≠ 0 ∧ w ≠ 1 ∧ w ≠ 2 ∨ e = .negativeOffset ∧
        (w = 0 ∧ off < 0 ∨ w = 1 ∧ r.i + off < 0 ∨ w = 2 ∧ r.buf.length + off < 0))) := by
  unfold BytesInput.seek
  simp only
  split
  · rename_i h
    right; refine ⟨_, rfl, .inl ⟨rfl, ?_⟩⟩
    split at h <;> try simp at h
    split at h <;> try simp at h
    simp_all
  · rename_i a h
    split
    · right
      rename_i ha
      refine ⟨_, rfl, .inr ⟨rfl, ?_⟩⟩
      split at h
      · simp at h; left; exact ⟨by assumption, by omega⟩
      · split at h
        · simp at h; right; left; exact ⟨by assumption, by omega⟩
        · split at h
          · simp at h; right; right; exact ⟨by assumption, by omega⟩
          · simp at h
    · left
      rename_i ha
      refine ⟨a.toNat, by simp; omega, ?_⟩
      have : ((a.toNat : Nat) : Int) = a := by omega
      rw [this]
      split at h
      · simp at h; left; exact ⟨by assumption, h.symm⟩
      · split at h
        · simp at h; right; left; exact ⟨by assumption, h.symm⟩
        · split at h
          · simp at h; right; right; exact ⟨by assumption, h.symm⟩
          · simp at h

/-- **C07** `Slice(off, n)` succeeds exactly for a window inside the data and then is an
input over exactly those `n` bytes. -/
theorem C07_slice (r : BytesInput) (off n : Int) :
    (0 ≤ n ∧ 0 ≤ off ∧ off + n ≤ r.buf.length ∧ ∃ pre suf win,
      r.buf = pre ++ win ++ suf ∧ (pre.length : Int) = off ∧ (win.length : Int) = n ∧
      r.slice off n = .ok ⟨win, 0⟩) ∨
    (¬ (0 ≤ n ∧ 0 ≤ off ∧ off + n ≤ r.buf.length) ∧ r.slice off n = .error .outOfRange) := by
  unfold BytesInput.slice
  by_cases h : n < 0 ∨ off < 0 ∨ (r.buf.length : Int) < off + n
  · right; rw [if_pos h]; exact ⟨by omega, rfl⟩
  · left; rw [if_neg h]
    refine ⟨by omega, by omega, by omega, r.buf.take off.toNat,
      (r.buf.drop off.toNat).drop n.toNat, (r.buf.drop off.toNat).take n.toNat, ?_, ?_, ?_, rfl⟩
    · rw [List.append_assoc, List.take_append_drop, List.take_append_drop]
    · simp; omega
    · simp; omega

example : (BytesInput.slice ⟨[1, 2, 3, 4], 3⟩ 1 2) = .ok ⟨[2, 3], 0⟩ := by decide +kernel
example : (BytesInput.run ⟨[1, 2, 3, 4, 5], 0⟩ [.seek (-3) 2, .readUInt16]).2 = ⟨[1, 2, 3, 4, 5], 4⟩ := by
  decide +kernel

/-! The `int64` additions: equal to the unbounded ones below 2^63, and a panic beyond. -/

theorem wrap64_id {x : Int} (h0 : 0 ≤ x) (h : x < 2 ^ 63) : wrap64 x = x := by
  unfold wrap64; omega

/-- **C07** (machine integers) below the `int64` limit the machine-integer versions coincide with
the model used everywhere else. -/
theorem C07_int64_agrees (r : BytesInput) (h : r.i + 4 < 2 ^ 63) :
    r.readUInt32_i64 = r.readUInt32 ∧ r.readUInt16_i64 = r.readUInt16 := by
  unfold BytesInput.readUInt32_i64 BytesInput.readUInt32 BytesInput.readUInt16_i64
    BytesInput.readUInt16
  rw [wrap64_id (by omega) (by omega), wrap64_id (by omega) (by omega)]
  constructor
  · by_cases hl : r.buf.length < r.i + 4
    · rw [if_pos hl, if_pos (by omega)]
    · rw [if_neg hl, if_neg (by omega)]
      simp only [BytesInput.sliceFrom]
      rw [if_neg (by omega)]
  · by_cases hl : r.buf.length < r.i + 2
    · rw [if_pos hl, if_pos (by omega)]
    · rw [if_neg hl, if_neg (by omega)]
      simp only [BytesInput.sliceFrom]
      rw [if_neg (by omega)]

theorem C07_slice_int64_agrees (r : BytesInput) (off n : Int) (h : off + n < 2 ^ 63) :
    r.slice_i64 off n = r.slice off n := by
  unfold BytesInput.slice_i64 BytesInput.slice
  by_cases h0 : n < 0 ∨ off < 0
  · rw [if_pos (by tauto), if_pos (by tauto)]
  · rw [wrap64_id (by omega) h]
    split
    · rfl
    · rw [if_neg (by omega), show off + n - off = n by omega]

/-- **C07** is false at the limit: after `Seek(MaxInt64, SeekStart)` (accepted by the code)
`ReadUInt32` panics with a slice-bounds error on any data. -/
theorem C07_int64_overflow_panics (buf : List UInt8) (hb : (buf.length : Int) < 2 ^ 63 - 1) :
    ((BytesInput.seek ⟨buf, 0⟩ (2 ^ 63 - 1) 0).1 = .ok (2 ^ 63 - 1)) ∧
    ((BytesInput.seek ⟨buf, 0⟩ (2 ^ 63 - 1) 0).2.readUInt32_i64).1 = .error .panicSlice := by
  constructor
  · simp [BytesInput.seek]
  · simp only [BytesInput.seek, BytesInput.readUInt32_i64, BytesInput.sliceFrom]
    simp
    rw [if_neg, if_pos (by omega)]
    have : wrap64 9223372036854775811 = -9223372036854775805 := by decide
    rw [this]; omega

/-- **C07** likewise `Slice(2^62, 2^62)` panics instead of reporting out-of-range. -/
theorem C07_slice_int64_overflow_panics (buf : List UInt8) :
    BytesInput.slice_i64 ⟨buf, 0⟩ (2 ^ 62) (2 ^ 62) = .error .panicSlice := by
  have : wrap64 (2 ^ 62 + 2 ^ 62) = -9223372036854775808 := by decide
  simp only [BytesInput.slice_i64, this]
  rw [if_neg (by omega), if_pos (by omega)]

end Verif.Props
