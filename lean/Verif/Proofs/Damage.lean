import Verif.Spec.Damage
import Verif.Props.Store
import Verif.Proofs.Merger
/- Searching an index whose bytes are arbitrary: iterators, mergers, searcher. -/
namespace Verif.Damage
open Verif Spec

theorem rep_notDeref : Err.Reported .notDereferencable := ⟨rfl, by simp [loopBound]⟩
theorem rep_eof : Err.Reported .eof := ⟨rfl, by simp [loopBound]⟩
theorem rep_uEOF : Err.Reported .unexpectedEOF := ⟨rfl, by simp [loopBound]⟩
theorem rep_overflow : Err.Reported .u32Overflow := ⟨rfl, by simp [loopBound]⟩
theorem rep_range : Err.Reported .outOfRange := ⟨rfl, by simp [loopBound]⟩

/-- A result whose error, if any, is an ordinary one. -/
def Good {α : Type} (x : Except Err α) : Prop := ∀ e, x = .error e → e.Reported

theorem good_ok {α : Type} (a : α) : Good (.ok a : Except Err α) := fun e h => by simp at h
theorem good_err {α : Type} {e : Err} (h : e.Reported) : Good (.error e : Except Err α) := fun e' h' => by
  simp only [Except.error.injEq] at h'; exact h' ▸ h

theorem readVUInt32_good (r : BytesInput) : Good r.readVUInt32.1 := by
  intro e he
  by_cases hc : ∃ code after, r.buf.drop r.i = code ++ after ∧ Spec.IsCode code ∧ code.length ≤ 5
  · obtain ⟨code, after, hd, ⟨pre, t, rfl, hp, ht⟩, h5⟩ := hc
    have := BytesInput.readVUInt32_code (i := r.i) (buf := r.buf) hp ht (rest := after)
      (by simpa using hd) (by simp at h5; omega)
    rw [this] at he; simp at he
  · obtain ⟨e', he', hr⟩ := Props.C02_readVUInt32_error r hc
    rw [hr] at he; simp only [Except.error.injEq] at he
    subst he
    rcases he' with rfl | rfl
    · exact rep_overflow
    · exact rep_uEOF

theorem readUInt16_good (r : BytesInput) : Good r.readUInt16.1 := by
  intro e he
  unfold BytesInput.readUInt16 at he
  split at he
  · simp only [Except.error.injEq] at he; rw [← he]; exact rep_uEOF
  · rename_i hl
    have : 2 ≤ (r.buf.drop r.i).length := by simp; omega
    match hm : r.buf.drop r.i, this with
    | b0 :: b1 :: _, _ => rw [hm] at he; simp [BytesInput.leUint16] at he

/-! ### Iterators -/

/-- What the mergers need of an iterator over damaged data: `Left s n` = "`s` can be advanced at most `n` more times";
`Ok` = the invariant kept by `LowerBound`. -/
structure RobustIter (σ : Type) [ListIter σ] where
  Left : σ → Nat → Prop
  get : ∀ s : σ, Good (ListIter.get s)
  next : ∀ (s : σ) n, Left s n → ListIter.hasNext s = true → Good (ListIter.next s).1 ∧
    ∀ v, (ListIter.next s).1 = .ok v → ∃ m, n = m + 1 ∧ Left (ListIter.next s).2 m
  lower : ∀ (s : σ) bnd, Good (ListIter.lowerBound s bnd).1

namespace VB

theorem next_good (s : VBList) : Good s.next.1 := by
  unfold VBList.next
  split
  · exact good_err rep_notDeref
  · have h := readVUInt32_good s.input
    generalize s.input.readVUInt32 = p at h
    obtain ⟨_ | v, inp⟩ := p
    · exact h
    · exact good_ok _

theorem next_ok {s : VBList} {v : Nat} (h : s.next.1 = .ok v) :
    s.index + 1 < s.size ∧ s.next.2.index = s.index + 1 ∧ s.next.2.size = s.size := by
  unfold VBList.next at h ⊢
  split at h
  · simp at h
  · rename_i hn
    simp only [VBList.hasNext, Bool.not_eq_true', decide_eq_false_iff_not, not_not] at hn
    rw [if_neg (by simpa [VBList.hasNext] using hn)]
    generalize s.input.readVUInt32 = p at h
    obtain ⟨_ | v, inp⟩ := p
    · simp at h
    · exact ⟨hn, rfl, rfl⟩

theorem lbLoop_good (bnd : Nat) : ∀ k s, Good (VBList.lbLoop bnd k s).1
  | 0, s => good_err rep_notDeref
  | k + 1, s => by
    unfold VBList.lbLoop
    split
    · have h := next_good s
      generalize s.next = p at h
      obtain ⟨_ | v, s'⟩ := p
      · exact h
      · dsimp only
        split
        · exact good_ok _
        · exact lbLoop_good bnd k s'
    · exact good_err rep_notDeref

theorem lower_good (s : VBList) (bnd : Nat) : Good (s.lowerBound bnd).1 := by
  unfold VBList.lowerBound
  split
  · exact good_err rep_notDeref
  · split
    · exact good_ok _
    · exact lbLoop_good _ _ _

/-- The bound on the iterations of `LowerBound` is never the reason why it stops. -/
theorem lbLoop_enough (bnd : Nat) : ∀ k s k', s.size ≤ s.index + k → k ≤ k' → VBList.lbLoop bnd k' s = VBList.lbLoop bnd k s
  | 0, s, k', h, hk => by
    cases k' with
    | zero => rfl
    | succ k' =>
      unfold VBList.lbLoop
      rw [if_neg]
      simp [VBList.hasNext]; omega
  | k + 1, s, k', h, hk => by
    obtain ⟨k', rfl⟩ : ∃ j, k' = j + 1 := ⟨k' - 1, by omega⟩
    unfold VBList.lbLoop
    split
    · have hn := @next_ok s
      generalize hp : s.next = p at hn
      obtain ⟨_ | v, s'⟩ := p
      · rfl
      · dsimp only
        split
        · rfl
        · obtain ⟨h1, h2, h3⟩ := hn rfl
          exact lbLoop_enough bnd k s' k' (by simp only at h2 h3; omega) (by omega)
    · rfl

end VB

namespace Skip

theorem readSkipping_good (s : SkipList) : ∀ e, s.readSkipping.1 = some e → e.Reported := by
  intro e he
  unfold SkipList.readSkipping at he
  have h := readUInt16_good s.input
  generalize s.input.readUInt16 = p at h he
  obtain ⟨e' | w, inp⟩ := p
  · simp only [Option.some.injEq] at he; exact h e (by rw [he])
  · dsimp only at he
    have h2 := readVUInt32_good inp
    generalize inp.readVUInt32 = p at h2 he
    obtain ⟨e' | v, inp'⟩ := p
    · simp only [Option.some.injEq] at he; exact h2 e (by rw [he])
    · simp at he

theorem readSkipping_ok {s : SkipList} (h : s.readSkipping.1 = none) :
    s.readSkipping.2.index = s.index ∧ s.readSkipping.2.size = s.size ∧ s.readSkipping.2.skippingGap = s.skippingGap := by
  unfold SkipList.readSkipping at h ⊢
  generalize s.input.readUInt16 = p at h
  obtain ⟨e' | w, inp⟩ := p
  · simp at h
  · dsimp only at h ⊢
    generalize inp.readVUInt32 = p at h
    obtain ⟨e' | v, inp'⟩ := p
    · simp at h
    · exact ⟨rfl, rfl, rfl⟩

theorem next_good (s : SkipList) : Good s.next.1 := by
  unfold SkipList.next
  split
  · exact good_err rep_notDeref
  · split
    · have h := readSkipping_good s
      generalize s.readSkipping = p at h
      obtain ⟨_ | e, s'⟩ := p
      · exact good_ok _
      · exact good_err (h e rfl)
    · have h := readVUInt32_good s.input
      generalize s.input.readVUInt32 = p at h
      obtain ⟨_ | v, inp⟩ := p
      · exact h
      · exact good_ok _

theorem next_ok {s : SkipList} {v : Nat} (h : s.next.1 = .ok v) :
    s.index + 1 < s.size ∧ s.next.2.index = s.index + 1 ∧ s.next.2.size = s.size ∧
      s.next.2.skippingGap = s.skippingGap := by
  unfold SkipList.next at h ⊢
  split at h
  · simp at h
  · rename_i hn
    simp only [SkipList.hasNext, Bool.not_eq_true', decide_eq_false_iff_not, not_not] at hn
    rw [if_neg (by simpa [SkipList.hasNext] using hn)]
    split at h
    · rename_i hi
      rw [if_pos hi]
      have hr := @readSkipping_ok s
      generalize s.readSkipping = p at h hr
      obtain ⟨_ | e, s'⟩ := p
      · obtain ⟨a, b, c⟩ := hr rfl
        exact ⟨hn, by simp only at a ⊢; omega, b, c⟩
      · simp at h
    · rename_i hi
      rw [if_neg hi]
      generalize s.input.readVUInt32 = p at h
      obtain ⟨_ | v, inp⟩ := p
      · simp at h
      · exact ⟨hn, rfl, rfl, rfl⟩

/-- Where the first loop of `LowerBound` jumps to: the iterator just before the last element of the current block. -/
def jump (s : SkipList) (skips : Nat) : SkipList :=
  let s1 := s.moveToPosition s.nextSkipPosition
  let s2 := { s1 with index := (skips + 1) * s1.skippingGap - 1 }
  if s2.index ≥ s2.size then { s2 with index := s2.size - 2 } else s2

theorem jump_spec (s : SkipList) (skips : Nat) : (jump s skips).size = s.size ∧ (jump s skips).skippingGap = s.skippingGap ∧
    (jump s skips).index = if (skips + 1) * s.skippingGap - 1 ≥ s.size then s.size - 2 else (skips + 1) * s.skippingGap - 1 := by
  by_cases h : (skips + 1) * s.skippingGap - 1 ≥ s.size
  · have e : jump s skips = { s.moveToPosition s.nextSkipPosition with index := s.size - 2 } := if_pos h
    rw [e, if_pos h]; exact ⟨rfl, rfl, rfl⟩
  · have e : jump s skips = { s.moveToPosition s.nextSkipPosition with index := (skips + 1) * s.skippingGap - 1 } := if_neg h
    rw [e, if_neg h]; exact ⟨rfl, rfl, rfl⟩

theorem blockLoop_succ (bnd k skips : Nat) (s : SkipList) : SkipList.blockLoop bnd (k + 1) skips s =
    if !s.isLastBlock && s.hasNext then
      match (jump s skips).next with
      | (.error e, s4) => (some e, s4)
      | (.ok cur, s4) =>
        if cur < bnd && !s4.isLastBlock then SkipList.blockLoop bnd k (skips + 1) s4
        else if cur ≥ bnd then (none, { s with input := (s4.moveToPosition s.input.i).input })
        else SkipList.blockLoop bnd k (skips + 1) s4
    else (none, s) := rfl

theorem blockLoop_good (bnd : Nat) : ∀ k skips s e, (SkipList.blockLoop bnd k skips s).1 = some e → e.Reported
  | 0, skips, s, e, h => by simp [SkipList.blockLoop] at h
  | k + 1, skips, s, e, h => by
    rw [blockLoop_succ] at h
    split at h
    · have hn := next_good (jump s skips)
      generalize (jump s skips).next = p at h hn
      obtain ⟨e' | v, s4⟩ := p
      · simp only [Option.some.injEq] at h; exact hn e (by rw [h])
      · dsimp only at h
        split at h
        · exact blockLoop_good bnd k _ _ _ h
        · split at h
          · simp at h
          · exact blockLoop_good bnd k _ _ _ h
    · simp at h

/-- The bound on the iterations of the loop over the blocks is never the reason why it stops. -/
theorem blockLoop_enough (bnd : Nat) : ∀ k skips s k', 0 < s.skippingGap →
    (s.hasNext = true → s.index < (skips + 1) * s.skippingGap) → s.size ≤ s.index + k → k ≤ k' →
    SkipList.blockLoop bnd k' skips s = SkipList.blockLoop bnd k skips s
  | 0, skips, s, k', hg, hx, h, hk => by
    cases k' with
    | zero => rfl
    | succ k' =>
      rw [blockLoop_succ, if_neg]
      · rfl
      · simp [SkipList.hasNext]; intro; omega
  | k + 1, skips, s, k', hg, hx, h, hk => by
    obtain ⟨k', rfl⟩ : ∃ j, k' = j + 1 := ⟨k' - 1, by omega⟩
    rw [blockLoop_succ, blockLoop_succ]
    split
    · rename_i hc
      have hhas : s.hasNext = true := by simp only [Bool.and_eq_true] at hc; exact hc.2
      have hlt := hx hhas
      simp only [SkipList.hasNext, decide_eq_true_eq] at hhas
      obtain ⟨j1, j2, j3⟩ := jump_spec s skips
      have hn := @next_ok (jump s skips)
      have hrec : ∀ v, (jump s skips).next.1 = .ok v →
          SkipList.blockLoop bnd k' (skips + 1) (jump s skips).next.2 = SkipList.blockLoop bnd k (skips + 1) (jump s skips).next.2 := by
        intro v hv
        obtain ⟨n1, n2, n3, n4⟩ := hn hv
        have hidx : s.index ≤ (jump s skips).index := by rw [j3]; split <;> omega
        refine blockLoop_enough bnd k _ _ k' (by rw [n4, j2]; exact hg) ?_ (by omega) (by omega)
        intro hh
        simp only [SkipList.hasNext, decide_eq_true_eq] at hh
        rw [n2, n4, j2]
        rw [n2, n3, j1] at hh
        rw [j3] at hh ⊢
        have : (skips + 1 + 1) * s.skippingGap = (skips + 1) * s.skippingGap + s.skippingGap := by ring
        rw [this]
        split <;> rename_i hs
        · rw [if_pos hs] at hh; omega
        · omega
      generalize (jump s skips).next = p at hrec
      obtain ⟨e' | v, s4⟩ := p
      · rfl
      · have := hrec v rfl
        dsimp only at this ⊢
        rw [this]
    · rfl

theorem seqLoop_good (bnd : Nat) : ∀ k s, Good (SkipList.seqLoop bnd k s).1
  | 0, s => good_err rep_notDeref
  | k + 1, s => by
    unfold SkipList.seqLoop
    split
    · have h := next_good s
      generalize s.next = p at h
      obtain ⟨_ | v, s'⟩ := p
      · exact h
      · dsimp only
        split
        · exact good_ok _
        · exact seqLoop_good bnd k s'
    · exact good_err rep_notDeref

/-- The bound on the iterations of the sequential loop is never the reason why it stops. -/
theorem seqLoop_enough (bnd : Nat) : ∀ k s k', s.size ≤ s.index + k → k ≤ k' → SkipList.seqLoop bnd k' s = SkipList.seqLoop bnd k s
  | 0, s, k', h, hk => by
    cases k' with
    | zero => rfl
    | succ k' =>
      unfold SkipList.seqLoop
      rw [if_neg]
      simp [SkipList.hasNext]; omega
  | k + 1, s, k', h, hk => by
    obtain ⟨k', rfl⟩ : ∃ j, k' = j + 1 := ⟨k' - 1, by omega⟩
    unfold SkipList.seqLoop
    split
    · have hn := @next_ok s
      generalize hp : s.next = p at hn
      obtain ⟨_ | v, s'⟩ := p
      · rfl
      · dsimp only
        split
        · rfl
        · obtain ⟨h1, h2, h3, _⟩ := hn rfl
          exact seqLoop_enough bnd k s' k' (by simp only at h2 h3; omega) (by omega)
    · rfl

theorem lower_good (s : SkipList) (bnd : Nat) : Good (s.lowerBound bnd).1 := by
  unfold SkipList.lowerBound
  split
  · exact good_err rep_notDeref
  · split
    · exact good_ok _
    · dsimp only
      have h := blockLoop_good bnd s.size (if s.index > 0 then s.index / s.skippingGap else 0) s
      generalize SkipList.blockLoop bnd s.size (if s.index > 0 then s.index / s.skippingGap else 0) s = p at h
      obtain ⟨_ | e, s'⟩ := p
      · exact seqLoop_good _ _ _
      · exact good_err (h e rfl)

end Skip

section
variable {ρ : Roaring} (R : ρ.Robust)

/-- The posting lists on damaged data. -/
def plRobust : RobustIter (PList ρ) where
  Left
    | .vb s, n => s.size ≤ s.index + n + 1
    | .skip s, n => s.size ≤ s.index + n + 1
    | .bitmap s, n => R.Left s.iterator n
  get := by
    intro s
    cases s with
    | vb s => show Good s.get; unfold VBList.get; split; exacts [good_err rep_notDeref, good_ok _]
    | skip s => show Good s.get; unfold SkipList.get; split; exacts [good_err rep_notDeref, good_ok _]
    | bitmap s => show Good s.get; unfold BitmapList.get; split; exacts [good_err rep_notDeref, good_ok _]
  next := by
    intro s n hl hh
    cases s with
    | vb s =>
      refine ⟨VB.next_good s, fun v hv => ?_⟩
      obtain ⟨h1, h2, h3⟩ := VB.next_ok (s := s) hv
      dsimp only at hl
      refine ⟨n - 1, by omega, ?_⟩
      show s.next.2.size ≤ s.next.2.index + (n - 1) + 1
      omega
    | skip s =>
      refine ⟨Skip.next_good s, fun v hv => ?_⟩
      obtain ⟨h1, h2, h3, _⟩ := Skip.next_ok (s := s) hv
      dsimp only at hl
      refine ⟨n - 1, by omega, ?_⟩
      show s.next.2.size ≤ s.next.2.index + (n - 1) + 1
      omega
    | bitmap s =>
      dsimp only at hl
      have hh' : s.hasNext = true := hh
      have hit : ρ.hasNext s.iterator = true := by
        simp only [BitmapList.hasNext, Bool.and_eq_true] at hh'; exact hh'.2
      obtain ⟨m, e1, e2⟩ := R.next _ _ hl hit
      have hnx : s.next = (.ok (ρ.next s.iterator).1, { s with iterator := (ρ.next s.iterator).2, current := (ρ.next s.iterator).1 }) := by
        unfold BitmapList.next
        rw [if_neg (by simp [hh'])]
      constructor
      · show Good s.next.1
        rw [hnx]; exact good_ok _
      · intro v _
        refine ⟨m, e1, ?_⟩
        show R.Left s.next.2.iterator m
        rw [hnx]; exact e2
  lower := by
    intro s bnd
    cases s with
    | vb s => exact VB.lower_good s bnd
    | skip s => exact Skip.lower_good s bnd
    | bitmap s =>
      show Good (s.lowerBound bnd).1
      unfold BitmapList.lowerBound
      split
      · exact good_err rep_notDeref
      · split
        · exact good_ok _
        · dsimp only
          split
          · exact good_err rep_notDeref
          · exact good_ok _

/-- The pooled object at the start of `Init`. -/
def fresh (stale : SkipList) (ctx : PLContext) : SkipList :=
  { pooledSkip stale with input := ctx.reader, size := ctx.listSize, index := 0, currentSkipValue := 0, nextSkipPosition := 0 }

theorem init_eq (stale : SkipList) (ctx : PLContext) : SkipList.init (pooledSkip stale) ctx =
    match SkipList.readSkipping (fresh stale ctx) with
    | (some e, _) => .error e
    | (none, s) => .ok s := rfl

/-- Opening a posting list on arbitrary bytes: an ordinary error, or an iterator that can be advanced fewer times than
its length says. -/
theorem openPList_good (stale : SkipList) (ctx : PLContext) : Good (openPList ρ stale ctx) ∧
    ∀ l, openPList ρ stale ctx = .ok l → ∃ n, (plRobust R).Left l n ∧ n ≤ ListIter.len l := by
  unfold openPList
  dsimp only
  split
  · unfold VBList.init
    have h := readVUInt32_good ctx.reader
    generalize ctx.reader.readVUInt32 = p at h
    obtain ⟨e | v, inp⟩ := p
    · exact ⟨good_err (h e rfl), fun l hl => by simp [Except.map] at hl⟩
    · refine ⟨good_ok _, fun l hl => ?_⟩
      simp only [Except.map, Except.ok.injEq] at hl
      subst hl
      exact ⟨ctx.listSize, by simp [plRobust], Nat.le_refl _⟩
  · split
    · rw [init_eq]
      have h := Skip.readSkipping_good (fresh stale ctx)
      have h2 := @Skip.readSkipping_ok (fresh stale ctx)
      generalize SkipList.readSkipping (fresh stale ctx) = p at h h2
      obtain ⟨_ | e, s⟩ := p
      · refine ⟨good_ok _, fun l hl => ?_⟩
        simp only [Except.map, Except.ok.injEq] at hl
        subst hl
        obtain ⟨a, b, _⟩ := h2 rfl
        exact ⟨s.size, by simp [plRobust]; omega, Nat.le_refl _⟩
      · exact ⟨good_err (h e rfl), fun l hl => by simp [Except.map] at hl⟩
    · unfold BitmapList.init
      have h := R.reject ctx.reader.buf
      have h2 := R.accept ctx.reader.buf
      generalize ρ.fromBuffer ctx.reader.buf = p at h h2
      obtain e | b := p
      · exact ⟨good_err (h e rfl), fun l hl => by simp [Except.map] at hl⟩
      · have hl := h2 b rfl
        dsimp only
        split
        · exact ⟨good_err ⟨rfl, by simp [loopBound]⟩, fun l hl => by simp [Except.map] at hl⟩
        · rename_i hh
          obtain ⟨m, e1, e2⟩ := R.next _ _ hl (by simpa using hh)
          refine ⟨good_ok _, fun l hl => ?_⟩
          simp only [Except.map, Except.ok.injEq] at hl
          subst hl
          exact ⟨m, e2, by show m ≤ ρ.cardinality b; omega⟩

end
end Verif.Damage
