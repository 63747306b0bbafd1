import Verif.Props.LMStore
/- Loading a language model from a file that was cut short. -/
namespace Verif.Damage
open Verif

/-- The loader `f`, when it succeeds on the bytes `p`, either stopped at the very end of `p`, or does not depend on what
follows `p`. -/
structure Stable {α : Type} (f : BytesInput → Except Err α × BytesInput) : Prop where
  buf : ∀ p i v r, i ≤ p.length → f ⟨p, i⟩ = (.ok v, r) → r.buf = p ∧ r.i ≤ p.length
  more : ∀ p i v r, i ≤ p.length → f ⟨p, i⟩ = (.ok v, r) → r.i = p.length ∨ ∀ q, f ⟨p ++ q, i⟩ = (.ok v, ⟨p ++ q, r.i⟩)

/-- … never depends on what follows. -/
structure Strict {α : Type} (f : BytesInput → Except Err α × BytesInput) : Prop where
  buf : ∀ p i v r, i ≤ p.length → f ⟨p, i⟩ = (.ok v, r) → r.buf = p ∧ r.i ≤ p.length
  more : ∀ p i v r, i ≤ p.length → f ⟨p, i⟩ = (.ok v, r) → ∀ q, f ⟨p ++ q, i⟩ = (.ok v, ⟨p ++ q, r.i⟩)

/-- … fails when nothing is left. -/
def FailsAtEnd {α : Type} (f : BytesInput → Except Err α × BytesInput) : Prop :=
  ∀ p, ∃ e r, f ⟨p, p.length⟩ = (.error e, r)

theorem Strict.stable {α : Type} {f : BytesInput → Except Err α × BytesInput} (h : Strict f) : Stable f :=
  ⟨h.buf, fun p i v r hi hf => .inr (h.more p i v r hi hf)⟩

theorem scan_stable (stop : UInt8) : ∀ (l : List UInt8) (acc : Nat) (any : Bool) (v n : Nat),
    scanUint32 stop l acc any = .ok (v, n) →
    n ≤ l.length ∧ ((stop = 10 ∧ n = l.length) ∨ ∀ q, scanUint32 stop (l ++ q) acc any = .ok (v, n))
  | [], acc, any, v, n, h => by
    unfold scanUint32 at h
    split at h
    · rename_i hc
      simp only [Except.ok.injEq, Prod.mk.injEq] at h
      simp [← h.2, hc.1]
    · simp at h
  | c :: l, acc, any, v, n, h => by
    simp only [List.cons_append, scanUint32] at h ⊢
    split at h
    · rename_i hc
      split at h
      · rename_i ha
        simp only [Except.ok.injEq, Prod.mk.injEq] at h
        refine ⟨by rw [← h.2]; simp, .inr fun q => ?_⟩
        rw [if_pos hc, if_pos ha, h.1, h.2]
      · simp at h
    · rename_i hc
      split at h
      · rename_i hd
        split at h
        · rename_i hlt
          split at h
          · simp at h
          · rename_i v' n' hr
            simp only [Except.ok.injEq, Prod.mk.injEq] at h
            obtain ⟨rfl, rfl⟩ := h
            obtain ⟨a, b⟩ := scan_stable stop l _ _ _ _ hr
            refine ⟨by simp only [List.length_cons]; omega, ?_⟩
            rcases b with ⟨b1, b2⟩ | b
            · exact .inl ⟨b1, by simp only [List.length_cons]; omega⟩
            · right
              intro q
              rw [if_neg hc, if_pos hd, if_pos hlt, b q]
        · simp at h
      · simp at h

theorem readNumber_buf {stop : UInt8} {p : List UInt8} {i v : Nat} {r : BytesInput} (hi : i ≤ p.length)
    (h : readNumber stop ⟨p, i⟩ = (.ok v, r)) : r.buf = p ∧ r.i ≤ p.length ∧ ((stop = 10 ∧ r.i = p.length) ∨
      ∀ q, readNumber stop ⟨p ++ q, i⟩ = (.ok v, ⟨p ++ q, r.i⟩)) := by
  unfold readNumber at h ⊢
  dsimp only at h ⊢
  split at h
  · simp at h
  · rename_i v' n hs
    simp only [Prod.mk.injEq, Except.ok.injEq] at h
    obtain ⟨rfl, rfl⟩ := h
    obtain ⟨a, b⟩ := scan_stable _ _ _ _ _ _ hs
    rw [List.length_drop] at a b
    refine ⟨rfl, by dsimp only; omega, ?_⟩
    rcases b with ⟨b1, b2⟩ | b
    · exact .inl ⟨b1, by dsimp only; omega⟩
    · right
      intro q
      rw [List.drop_append_of_le_length hi, b q]

theorem readUInt32_strict : Strict BytesInput.readUInt32 := by
  have key : ∀ p i v r, BytesInput.readUInt32 ⟨p, i⟩ = (.ok v, r) → i + 4 ≤ p.length ∧ r = ⟨p, i + 4⟩ ∧
      BytesInput.leUint32 (p.drop i) = .ok v := by
    intro p i v r h
    unfold BytesInput.readUInt32 at h
    dsimp only at h
    split at h
    · simp at h
    · rename_i hl
      simp only [Prod.mk.injEq] at h
      exact ⟨by omega, h.2.symm, h.1⟩
  refine ⟨fun p i v r hi h => ?_, fun p i v r hi h q => ?_⟩
  · obtain ⟨a, rfl, _⟩ := key _ _ _ _ h
    exact ⟨rfl, a⟩
  · obtain ⟨a, rfl, c⟩ := key _ _ _ _ h
    unfold BytesInput.readUInt32
    dsimp only
    rw [if_neg (by rw [List.length_append]; omega), List.drop_append_of_le_length hi]
    refine Prod.ext ?_ rfl
    dsimp only
    have hl : 4 ≤ (p.drop i).length := by rw [List.length_drop]; omega
    generalize p.drop i = l at c hl
    match l, hl with
    | a :: b :: x :: d :: l, _ => exact c

theorem readUInt32s_strict : ∀ n, Strict (readUInt32s n)
  | 0 => by
    refine ⟨fun p i v r hi h => ?_, fun p i v r hi h q => ?_⟩
    · simp only [readUInt32s, Prod.mk.injEq] at h
      rw [← h.2]; exact ⟨rfl, hi⟩
    · simp only [readUInt32s, Prod.mk.injEq] at h ⊢
      rw [← h.2]; exact ⟨h.1, rfl⟩
  | n + 1 => by
    have ih := readUInt32s_strict n
    have key : ∀ p i v r, i ≤ p.length → readUInt32s (n + 1) ⟨p, i⟩ = (.ok v, r) → ∃ x r1 xs, BytesInput.readUInt32 ⟨p, i⟩ = (.ok x, r1) ∧
        r1.buf = p ∧ r1.i ≤ p.length ∧ readUInt32s n ⟨p, r1.i⟩ = (.ok xs, r) ∧ v = x :: xs := by
      intro p i v r hi h
      simp only [readUInt32s] at h
      split at h
      · simp at h
      · rename_i x r1 h1
        obtain ⟨a, b⟩ := readUInt32_strict.buf _ _ _ _ hi h1
        split at h
        · simp at h
        · rename_i xs r2 h2
          simp only [Prod.mk.injEq, Except.ok.injEq] at h
          obtain ⟨rfl, rfl⟩ := h
          refine ⟨x, r1, xs, h1, a, b, ?_, rfl⟩
          rw [← h2, ← a]
    refine ⟨fun p i v r hi h => ?_, fun p i v r hi h q => ?_⟩
    · obtain ⟨x, r1, xs, h1, a, b, h2, _⟩ := key _ _ _ _ hi h
      exact ih.buf _ _ _ _ b h2
    · obtain ⟨x, r1, xs, h1, a, b, h2, rfl⟩ := key _ _ _ _ hi h
      simp only [readUInt32s]
      rw [readUInt32_strict.more _ _ _ _ hi h1 q]
      dsimp only
      rw [ih.more _ _ _ _ b h2 q]

theorem mphLoad_parts {p : List UInt8} {i : Nat} {v : MPH} {r : BytesInput} (hi : i ≤ p.length)
    (h : mphLoad ⟨p, i⟩ = (.ok v, r)) : ∃ n r1 vals r2 s r3 aux,
      BytesInput.readUInt32 ⟨p, i⟩ = (.ok n, r1) ∧ r1.buf = p ∧ r1.i ≤ p.length ∧
      readUInt32s n ⟨p, r1.i⟩ = (.ok vals, r2) ∧ r2.buf = p ∧ r2.i ≤ p.length ∧
      BytesInput.readUInt32 ⟨p, r2.i⟩ = (.ok s, r3) ∧ r3.buf = p ∧ r3.i ≤ p.length ∧
      readUInt32s s ⟨p, r3.i⟩ = (.ok aux, r) ∧ v = ⟨aux.map toI32, vals⟩ := by
  unfold mphLoad at h
  split at h
  · simp at h
  · rename_i n r1 h1
    obtain ⟨a1, b1⟩ := readUInt32_strict.buf _ _ _ _ hi h1
    obtain ⟨bf, i1⟩ := r1
    dsimp only at a1 b1
    subst a1
    split at h
    · simp at h
    · rename_i vals r2 h2
      obtain ⟨a2, b2⟩ := (readUInt32s_strict n).buf _ _ _ _ b1 h2
      obtain ⟨bf, i2⟩ := r2
      dsimp only at a2 b2
      subst a2
      split at h
      · simp at h
      · rename_i s r3 h3
        obtain ⟨a3, b3⟩ := readUInt32_strict.buf _ _ _ _ b2 h3
        obtain ⟨bf, i3⟩ := r3
        dsimp only at a3 b3
        subst a3
        split at h
        · simp at h
        · rename_i aux r4 h4
          simp only [Prod.mk.injEq, Except.ok.injEq] at h
          obtain ⟨rfl, rfl⟩ := h
          exact ⟨n, _, vals, _, s, _, aux, h1, rfl, b1, h2, rfl, b2, h3, rfl, b3, h4, rfl⟩

theorem mphLoad_strict : Strict mphLoad := by
  refine ⟨fun p i v r hi h => ?_, fun p i v r hi h q => ?_⟩
  · obtain ⟨n, r1, vals, r2, s, r3, aux, h1, a1, b1, h2, a2, b2, h3, a3, b3, h4, rfl⟩ := mphLoad_parts hi h
    exact (readUInt32s_strict s).buf _ _ _ _ b3 h4
  · obtain ⟨n, r1, vals, r2, s, r3, aux, h1, a1, b1, h2, a2, b2, h3, a3, b3, h4, rfl⟩ := mphLoad_parts hi h
    unfold mphLoad
    rw [readUInt32_strict.more _ _ _ _ hi h1 q]
    dsimp only
    rw [(readUInt32s_strict n).more _ _ _ _ b1 h2 q]
    dsimp only
    rw [readUInt32_strict.more _ _ _ _ b2 h3 q]
    dsimp only
    rw [(readUInt32s_strict s).more _ _ _ _ b3 h4 q]

theorem mphLoad_end : FailsAtEnd mphLoad := by
  intro p
  unfold mphLoad BytesInput.readUInt32
  dsimp only
  rw [if_pos (by omega)]
  exact ⟨_, _, rfl⟩

theorem packedArrayLoad_end : FailsAtEnd packedArrayLoad := by
  intro p
  unfold packedArrayLoad readNumber
  simp only [List.drop_length, scanUint32]
  exact ⟨_, _, rfl⟩

/-- The part of `packedArrayLoad` behind the header. -/
def loadBody (cs vs total : Nat) (r : BytesInput) : Except Err PackedArray × BytesInput :=
  let n := u32 (cs + vs)
  if r.i + n ≤ r.buf.length then
    let data := (r.buf.drop r.i).take n
    let r' : BytesInput := { r with i := r.i + n }
    if cs ≤ data.length then
      match byteSliceAsUint64Slice (data.take cs), byteSliceAsUint64Slice (data.drop cs) with
      | .ok c, .ok v => (.ok ⟨c, v, total⟩, r')
      | .error e, _ => (.error e, r')
      | _, .error e => (.error e, r')
    else (.error .panicSlice, r')
  else (.error .panicSlice, r)

theorem loadBody_strict (cs vs total : Nat) : Strict (loadBody cs vs total) := by
  have key : ∀ p i v r, loadBody cs vs total ⟨p, i⟩ = (.ok v, r) → i + u32 (cs + vs) ≤ p.length ∧ r = ⟨p, i + u32 (cs + vs)⟩ := by
    intro p i v r h
    unfold loadBody at h
    dsimp only at h
    split at h
    · rename_i hl
      split at h
      · split at h
        · simp only [Prod.mk.injEq] at h
          exact ⟨hl, h.2.symm⟩
        · simp at h
        · simp at h
      · simp at h
    · simp at h
  refine ⟨fun p i v r hi h => ?_, fun p i v r hi h q => ?_⟩
  · obtain ⟨a, rfl⟩ := key _ _ _ _ h
    exact ⟨rfl, a⟩
  · obtain ⟨a, rfl⟩ := key _ _ _ _ h
    unfold loadBody at h ⊢
    dsimp only at h ⊢
    have e : ((p ++ q).drop i).take (u32 (cs + vs)) = (p.drop i).take (u32 (cs + vs)) := by
      rw [List.drop_append_of_le_length hi, List.take_append_of_le_length (by rw [List.length_drop]; omega)]
    rw [if_pos (by rw [List.length_append]; omega), e]
    rw [if_pos a] at h
    split at h
    · rename_i hc
      rw [if_pos hc]
      split at h
      · rename_i c v' h1 h2
        simp only [Prod.mk.injEq] at h ⊢
        exact ⟨h.1, trivial⟩
      · simp at h
      · simp at h
    · simp at h

theorem packedArrayLoad_parts {p : List UInt8} {i : Nat} {v : PackedArray} {r : BytesInput} (hi : i ≤ p.length)
    (h : packedArrayLoad ⟨p, i⟩ = (.ok v, r)) : ∃ cs i1 vs i2 total i3,
      readNumber 32 ⟨p, i⟩ = (.ok cs, ⟨p, i1⟩) ∧ i1 ≤ p.length ∧ readNumber 32 ⟨p, i1⟩ = (.ok vs, ⟨p, i2⟩) ∧ i2 ≤ p.length ∧
      readNumber 10 ⟨p, i2⟩ = (.ok total, ⟨p, i3⟩) ∧ i3 ≤ p.length ∧ loadBody cs vs total ⟨p, i3⟩ = (.ok v, r) := by
  unfold packedArrayLoad at h
  split at h
  · simp at h
  · rename_i cs r1 h1
    obtain ⟨a1, b1, _⟩ := readNumber_buf hi h1
    obtain ⟨bf, i1⟩ := r1
    dsimp only at a1 b1
    subst a1
    split at h
    · simp at h
    · rename_i vs r2 h2
      obtain ⟨a2, b2, _⟩ := readNumber_buf b1 h2
      obtain ⟨bf, i2⟩ := r2
      dsimp only at a2 b2
      subst a2
      split at h
      · simp at h
      · rename_i total r3 h3
        obtain ⟨a3, b3, _⟩ := readNumber_buf b2 h3
        obtain ⟨bf, i3⟩ := r3
        dsimp only at a3 b3
        subst a3
        exact ⟨cs, i1, vs, i2, total, i3, h1, b1, h2, b2, h3, b3, h⟩

theorem packedArrayLoad_body {p : List UInt8} {i cs i1 vs i2 total i3 : Nat} (h1 : readNumber 32 ⟨p, i⟩ = (.ok cs, ⟨p, i1⟩))
    (h2 : readNumber 32 ⟨p, i1⟩ = (.ok vs, ⟨p, i2⟩)) (h3 : readNumber 10 ⟨p, i2⟩ = (.ok total, ⟨p, i3⟩)) :
    packedArrayLoad ⟨p, i⟩ = loadBody cs vs total ⟨p, i3⟩ := by
  unfold packedArrayLoad
  rw [h1]
  dsimp only
  rw [h2]
  dsimp only
  rw [h3]
  rfl

theorem packedArrayLoad_stable : Stable packedArrayLoad := by
  refine ⟨fun p i v r hi h => ?_, fun p i v r hi h => ?_⟩
  · obtain ⟨cs, i1, vs, i2, total, i3, h1, b1, h2, b2, h3, b3, h4⟩ := packedArrayLoad_parts hi h
    exact (loadBody_strict _ _ _).buf _ _ _ _ b3 h4
  · obtain ⟨cs, i1, vs, i2, total, i3, h1, b1, h2, b2, h3, b3, h4⟩ := packedArrayLoad_parts hi h
    rcases (readNumber_buf b2 h3).2.2 with ⟨_, he⟩ | h3'
    · left
      dsimp only at he
      obtain ⟨_, c⟩ := (loadBody_strict _ _ _).buf _ _ _ _ b3 h4
      have hge : i3 ≤ r.i := by
        unfold loadBody at h4
        dsimp only at h4
        split at h4
        · split at h4
          · split at h4
            · simp only [Prod.mk.injEq] at h4
              rw [← h4.2]; dsimp only; omega
            · simp at h4
            · simp at h4
          · simp at h4
        · simp at h4
      omega
    · right
      intro q
      have g1 := ((readNumber_buf hi h1).2.2.resolve_left (by simp)) q
      have g2 := ((readNumber_buf b1 h2).2.2.resolve_left (by simp)) q
      rw [packedArrayLoad_body g1 g2 (h3' q)]
      exact (loadBody_strict _ _ _).more _ _ _ _ b3 h4 q

theorem loadVectors_stable : ∀ n, Stable (loadVectors n)
  | 0 => by
    refine ⟨fun p i v r hi h => ?_, fun p i v r hi h => .inr fun q => ?_⟩
    · simp only [loadVectors, Prod.mk.injEq] at h
      rw [← h.2]; exact ⟨rfl, hi⟩
    · simp only [loadVectors, Prod.mk.injEq] at h ⊢
      rw [← h.2]; exact ⟨h.1, rfl⟩
  | n + 1 => by
    have ih := loadVectors_stable n
    have key : ∀ p i v r, i ≤ p.length → loadVectors (n + 1) ⟨p, i⟩ = (.ok v, r) → ∃ x i1 xs, packedArrayLoad ⟨p, i⟩ = (.ok x, ⟨p, i1⟩) ∧
        i1 ≤ p.length ∧ loadVectors n ⟨p, i1⟩ = (.ok xs, r) ∧ v = x :: xs := by
      intro p i v r hi h
      simp only [loadVectors] at h
      split at h
      · simp at h
      · rename_i x r1 h1
        obtain ⟨a, b⟩ := packedArrayLoad_stable.buf _ _ _ _ hi h1
        obtain ⟨bf, i1⟩ := r1
        dsimp only at a b
        subst a
        split at h
        · simp at h
        · rename_i xs r2 h2
          simp only [Prod.mk.injEq, Except.ok.injEq] at h
          obtain ⟨rfl, rfl⟩ := h
          exact ⟨x, i1, xs, h1, b, h2, rfl⟩
    refine ⟨fun p i v r hi h => ?_, fun p i v r hi h => ?_⟩
    · obtain ⟨x, i1, xs, h1, b, h2, _⟩ := key _ _ _ _ hi h
      exact ih.buf _ _ _ _ b h2
    · obtain ⟨x, i1, xs, h1, b, h2, rfl⟩ := key _ _ _ _ hi h
      rcases packedArrayLoad_stable.more _ _ _ _ hi h1 with he | g1
      · dsimp only at he
        cases n with
        | zero =>
          simp only [loadVectors, Prod.mk.injEq] at h2
          left; rw [← h2.2]; exact he
        | succ n =>
          subst he
          obtain ⟨e, r', hx⟩ := packedArrayLoad_end p
          simp only [loadVectors, hx] at h2
          simp at h2
      · rcases ih.more _ _ _ _ b h2 with he | g2
        · exact .inl he
        · right
          intro q
          simp only [loadVectors]
          rw [g1 q]
          dsimp only
          rw [g2 q]

theorem modelLoad_parts {p : List UInt8} {vs : List PackedArray} {r : BytesInput} (h : modelLoad ⟨p, 0⟩ = (.ok vs, r)) :
    ∃ order, p.take 5 = modelVersion ∧ 6 ≤ p.length ∧ BytesInput.byteAt p 5 = .ok order ∧
      loadVectors order ⟨p, 6⟩ = (.ok vs, r) := by
  unfold modelLoad BytesInput.read at h
  dsimp only at h
  by_cases h0 : p.length ≤ 0
  · rw [if_pos h0] at h
    simp at h
  · rw [if_neg h0] at h
    dsimp only at h
    rw [List.drop_zero] at h
    by_cases hv : p.take 5 = modelVersion
    · rw [if_neg (by simp [hv])] at h
      rw [hv] at h
      unfold BytesInput.readByte at h
      dsimp only at h
      have h5 : modelVersion.length = 5 := rfl
      rw [h5] at h
      by_cases h6 : p.length ≤ 0 + 5
      · rw [if_pos h6] at h
        simp at h
      · rw [if_neg h6] at h
        cases hb : BytesInput.byteAt p (0 + 5) with
        | error e => rw [hb] at h; simp at h
        | ok order =>
          rw [hb] at h
          exact ⟨order, hv, by omega, rfl, h⟩
    · rw [if_pos hv] at h
      simp at h

/-- The model loaded from a prefix of a file is the model of the whole file, unless the loader reached the end of the
prefix. -/
theorem modelLoad_prefix {p q : List UInt8} {vs : List PackedArray} {r : BytesInput} (h : modelLoad ⟨p, 0⟩ = (.ok vs, r)) :
    r.buf = p ∧ r.i ≤ p.length ∧ (r.i = p.length ∨ modelLoad ⟨p ++ q, 0⟩ = (.ok vs, ⟨p ++ q, r.i⟩)) := by
  obtain ⟨order, a1, a2, a3, a4⟩ := modelLoad_parts h
  obtain ⟨b1, b2⟩ := (loadVectors_stable order).buf _ _ _ _ a2 a4
  refine ⟨b1, b2, ?_⟩
  rcases (loadVectors_stable order).more _ _ _ _ a2 a4 with he | g
  · exact .inl he
  · right
    have e1 : (p ++ q).take 5 = modelVersion := by rw [List.take_append_of_le_length (by omega)]; exact a1
    have e2 : BytesInput.byteAt (p ++ q) (0 + 5) = .ok order := by
      unfold BytesInput.byteAt at a3 ⊢
      rw [List.getElem?_append_left (by omega)]
      exact a3
    have h5 : modelVersion.length = 5 := rfl
    unfold modelLoad BytesInput.read
    dsimp only
    rw [if_neg (by rw [List.length_append]; omega)]
    dsimp only
    rw [List.drop_zero, e1, if_neg (by simp), h5]
    unfold BytesInput.readByte
    dsimp only
    rw [if_neg (by rw [List.length_append]; omega), e2]
    exact g q

/-- **Every proper prefix of the file of a language model is refused.** -/
theorem lmLoad_prefix {vs : List PackedArray} (hn : vs.length < 256) (hs : ∀ v ∈ vs, Props.Storable v) {m : MPH}
    (hl : m.values.length < 2 ^ 32 ∧ m.auxiliary.length < 2 ^ 32)
    (hv : ∀ v ∈ m.values, v < 2 ^ 32) (ha : ∀ a ∈ m.auxiliary, -2 ^ 31 ≤ a ∧ a < 2 ^ 31)
    {p q : List UInt8} (hpq : p ++ q = lmStore vs m) (hq : q ≠ []) : ∃ e, lmLoad p = .error e := by
  unfold lmLoad newBytesInput
  have m1 := Props.C48_model_roundtrip vs hn hs [] m.store
  have m2 := Props.C48_mph_roundtrip m hl hv ha (modelStore vs) []
  simp only [List.nil_append, List.length_nil, List.append_nil] at m1 m2
  change modelLoad ⟨lmStore vs m, 0⟩ = (.ok vs, ⟨lmStore vs m, _⟩) at m1
  change mphLoad ⟨lmStore vs m, _⟩ = (.ok m, ⟨lmStore vs m, (lmStore vs m).length⟩) at m2
  cases h1 : modelLoad ⟨p, 0⟩ with
  | mk x r =>
    cases x with
    | error e => exact ⟨e, rfl⟩
    | ok vs' =>
      dsimp only
      obtain ⟨b1, b2, b3⟩ := modelLoad_prefix (q := q) h1
      obtain ⟨bf, i⟩ := r
      dsimp only at b1 b2 b3
      subst b1
      rcases b3 with he | g
      · subst he
        obtain ⟨e, r', hx⟩ := mphLoad_end bf
        rw [hx]
        exact ⟨e, rfl⟩
      · cases h2 : mphLoad ⟨bf, i⟩ with
        | mk y r2 =>
          cases y with
          | error e => exact ⟨e, rfl⟩
          | ok m' =>
            exfalso
            obtain ⟨c1, c2⟩ := mphLoad_strict.buf _ _ _ _ b2 h2
            have c3 := mphLoad_strict.more _ _ _ _ b2 h2 q
            rw [hpq] at g c3
            rw [m1] at g
            simp only [Prod.mk.injEq, Except.ok.injEq, BytesInput.mk.injEq, true_and] at g
            rw [← g.2, m2] at c3
            simp only [Prod.mk.injEq, Except.ok.injEq, BytesInput.mk.injEq, true_and] at c3
            have := congrArg List.length hpq
            rw [List.length_append] at this
            have : 0 < q.length := List.length_pos_iff.2 hq
            omega

end Verif.Damage
