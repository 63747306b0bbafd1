import Verif.Proofs.Pool
import Mathlib.Data.List.Forall2
import Mathlib.Data.List.Induction
/-!
The search with shared objects (Model/Pool.lean), alone with the objects it owns, computes what the model with values computes.
-/
namespace Verif.Pool
open Verif
open Verif.Spec (CollectRes)
variable {ρ : Roaring}

/-- The objects in use of the ownership of one goroutine. -/
abbrev Own (ρ : Roaring) := Ref → Option (Obj ρ)

/-- The type of a posting list object (with the constant field of the skipping lists). -/
def tag : PList ρ → PoolName × Nat
  | .vb _ => (.vb, 0)
  | .skip s => (.skip, s.skippingGap)
  | .bitmap _ => (.bitmap, 0)

/-- What may be in the pools. -/
def okObj : PoolName → Obj ρ → Prop
  | .buf, o => ∃ a, o = .buf a
  | .vb, o => ∃ s, o = .list s ∧ tag s = (.vb, 0)
  | .skip, o => ∃ s, o = .list s ∧ tag s = (.skip, skippingGapSize)
  | .bitmap, o => (∃ s, o = .list s ∧ tag s = (.bitmap, 0)) ∨ o = .newBitmap

theorem newObj_ok (p : PoolName) : okObj p (newObj p : Obj ρ) := by
  cases p
  · exact ⟨_, rfl⟩
  · exact ⟨_, rfl, rfl⟩
  · exact ⟨_, rfl, rfl⟩
  · exact .inr rfl

/-! ### The type of an object does not change -/

theorem skip_readSkipping_gap (s : SkipList) : s.readSkipping.2.skippingGap = s.skippingGap := by
  unfold SkipList.readSkipping
  split
  · rfl
  · dsimp only
    split <;> rfl

theorem skip_next_gap (s : SkipList) : s.next.2.skippingGap = s.skippingGap := by
  unfold SkipList.next
  split
  · rfl
  · split
    · have := skip_readSkipping_gap s
      revert this
      split
      · rename_i h; rw [h]; exact id
      · rename_i h; rw [h]; exact id
    · split <;> rfl

theorem skip_blockLoop_gap (bnd n : Nat) : ∀ (skips : Nat) (s : SkipList), (SkipList.blockLoop bnd n skips s).2.skippingGap = s.skippingGap := by
  induction n with
  | zero => intro skips s; rfl
  | succ n ih =>
    intro skips s
    unfold SkipList.blockLoop
    split
    · dsimp only
      have e3 : ∀ s2 : SkipList, (if s2.index ≥ s2.size then { s2 with index := s2.size - 2 } else s2).skippingGap = s2.skippingGap := by
        intro s2; split <;> rfl
      replace e3 := e3 { s.moveToPosition s.nextSkipPosition with index := (skips + 1) * (s.moveToPosition s.nextSkipPosition).skippingGap - 1 }
      replace e3 : _ = s.skippingGap := e3
      revert e3
      generalize (if (_ : Nat) ≥ _ then _ else _ : SkipList) = s3
      intro e3
      have := skip_next_gap s3
      split
      · rename_i h; rw [h] at this; exact this.trans e3
      · rename_i h
        rw [h] at this
        split
        · rw [ih]; exact this.trans e3
        · split
          · rfl
          · rw [ih]; exact this.trans e3
    · rfl

theorem skip_seqLoop_gap (bnd n : Nat) : ∀ (s : SkipList), (SkipList.seqLoop bnd n s).2.skippingGap = s.skippingGap := by
  induction n with
  | zero => intro s; rfl
  | succ n ih =>
    intro s
    unfold SkipList.seqLoop
    split
    · have := skip_next_gap s
      split
      · rename_i h; rw [h] at this; exact this
      · rename_i h
        rw [h] at this
        split
        · exact this
        · rw [ih]; exact this
    · rfl

theorem skip_lowerBound_gap (s : SkipList) (bnd : Nat) : (s.lowerBound bnd).2.skippingGap = s.skippingGap := by
  unfold SkipList.lowerBound
  split
  · rfl
  · split
    · rfl
    · dsimp only
      have := skip_blockLoop_gap bnd s.size (if s.index > 0 then s.index / s.skippingGap else 0) s
      split
      · rename_i h; rw [h] at this; exact this
      · rename_i h; rw [h] at this; rw [skip_seqLoop_gap]; exact this

theorem tag_next (s : PList ρ) : tag (ListIter.next s).2 = tag s := by
  cases s with
  | vb s => rfl
  | skip s => exact congrArg (Prod.mk _) (skip_next_gap s)
  | bitmap s => rfl

theorem tag_lowerBound (s : PList ρ) (bnd : Nat) : tag (ListIter.lowerBound s bnd).2 = tag s := by
  cases s with
  | vb s => rfl
  | skip s => exact congrArg (Prod.mk _) (skip_lowerBound_gap s bnd)
  | bitmap s => rfl

/-! ### What a program has changed -/

/-- Of the objects in `own`, at most those in `S` have changed, and no type has. -/
structure Changes (own own' : Own ρ) (S : List Ref) : Prop where
  keep : ∀ r, own r ≠ none → r ∉ S → own' r = own r
  buf : ∀ r a, own r = some (.buf a) → ∃ a', own' r = some (.buf a')
  list : ∀ r s, own r = some (.list s) → ∃ s', own' r = some (.list s') ∧ tag s' = tag s

theorem Changes.refl (own : Own ρ) (S : List Ref) : Changes own own S :=
  ⟨fun _ _ _ => rfl, fun _ a h => ⟨a, h⟩, fun _ s h => ⟨s, h, rfl⟩⟩

theorem Changes.trans {o1 o2 o3 : Own ρ} {S T : List Ref} (h1 : Changes o1 o2 S) (h2 : Changes o2 o3 T)
    (h : ∀ r ∈ T, r ∈ S ∨ o1 r = none) : Changes o1 o3 S := by
  refine ⟨?_, ?_, ?_⟩
  · intro r hr hs
    have e := h1.keep r hr hs
    rw [← e]
    apply h2.keep r (by rw [e]; exact hr)
    intro ht
    rcases h r ht with h | h
    · exact hs h
    · exact hr h
  · intro r a hr
    obtain ⟨a', e⟩ := h1.buf r a hr
    exact h2.buf r a' e
  · intro r s hr
    obtain ⟨s', e, t⟩ := h1.list r s hr
    obtain ⟨s'', e', t'⟩ := h2.list r s' e
    exact ⟨s'', e', t'.trans t⟩

theorem Changes.mono {o1 o2 : Own ρ} {S T : List Ref} (h1 : Changes o1 o2 S) (h : ∀ r ∈ S, r ∈ T) : Changes o1 o2 T :=
  ⟨fun r hr hs => h1.keep r hr fun hc => hs (h r hc), h1.buf, h1.list⟩

theorem Changes.ne_none {o1 o2 : Own ρ} {S : List Ref} (h : Changes o1 o2 S) {r : Ref} (hr : o1 r ≠ none) (hS : r ∉ S) : o2 r ≠ none := by
  rw [h.keep r hr hS]; exact hr

theorem Changes.of_list {own : Own ρ} {r : Ref} {s s' : PList ρ} (h : own r = some (.list s)) (ht : tag s' = tag s) :
    Changes own (Function.update own r (some (.list s'))) [r] := by
  refine ⟨fun q _ hq => Function.update_of_ne (by simpa using hq) _ _, ?_, ?_⟩
  · intro q a hq
    by_cases e : q = r
    · subst e; rw [h] at hq; cases hq
    · exact ⟨a, by rw [Function.update_of_ne e]; exact hq⟩
  · intro q x hq
    by_cases e : q = r
    · subst e
      rw [h] at hq
      cases hq
      exact ⟨s', by simp, ht⟩
    · exact ⟨x, by rw [Function.update_of_ne e]; exact hq, rfl⟩

theorem Changes.of_buf {own : Own ρ} {r : Ref} {a a' : List MergeCandidate} (h : own r = some (.buf a)) :
    Changes own (Function.update own r (some (.buf a'))) [r] := by
  refine ⟨fun q _ hq => Function.update_of_ne (by simpa using hq) _ _, ?_, ?_⟩
  · intro q x hq
    by_cases e : q = r
    · subst e; exact ⟨a', by simp⟩
    · exact ⟨x, by rw [Function.update_of_ne e]; exact hq⟩
  · intro q x hq
    by_cases e : q = r
    · subst e; rw [h] at hq; cases hq
    · exact ⟨x, by rw [Function.update_of_ne e]; exact hq, rfl⟩

theorem Changes.of_alloc {own : Own ρ} {r : Ref} {o : Obj ρ} (h : own r = none) (S : List Ref) :
    Changes own (Function.update own r (some o)) S := by
  have hne : ∀ q, own q ≠ none → q ≠ r := fun q hq e => hq (by rw [e]; exact h)
  refine ⟨fun q hq _ => Function.update_of_ne (hne q hq) _ _, ?_, ?_⟩
  · intro q x hq
    exact ⟨x, by rw [Function.update_of_ne (hne q (by rw [hq]; simp))]; exact hq⟩
  · intro q x hq
    exact ⟨x, by rw [Function.update_of_ne (hne q (by rw [hq]; simp))]; exact hq, rfl⟩

/-! ### Elementary accesses -/

theorem wp_onList {β : Type} {r : Ref} {f : PList ρ → β × PList ρ} {d : β} {own : Own ρ} {s : PList ρ} {Q : β → Own ρ → Prop}
    (h : own r = some (.list s)) (hq : Q (f s).1 (Function.update own r (some (.list (f s).2)))) : wp okObj (onList r f d) own Q :=
  ⟨.list s, h, hq⟩

theorem wp_peek {β : Type} {r : Ref} {f : PList ρ → β} {d : β} {own : Own ρ} {s : PList ρ} {Q : β → Own ρ → Prop}
    (h : own r = some (.list s)) (hq : Q (f s) own) : wp okObj (onList r (fun s => (f s, s)) d) own Q := by
  refine wp_onList h ?_
  have : Function.update own r (some (.list s)) = own := by rw [← h, Function.update_eq_self]
  simp only [this]
  exact hq

/-- The slice holds the candidates `l`. -/
def Holds (own : Own ρ) (s : Slice) (l : List MergeCandidate) : Prop := ∃ a, own s.arr = some (.buf a) ∧ s.len = l.length ∧ l <+: a

theorem Holds.keep {o1 o2 : Own ρ} {S : List Ref} {s : Slice} {l : List MergeCandidate} (h : Holds o1 s l) (hc : Changes o1 o2 S)
    (hs : s.arr ∉ S) : Holds o2 s l := by
  obtain ⟨a, h1, h2⟩ := h
  exact ⟨a, by rw [hc.keep _ (by rw [h1]; simp) hs]; exact h1, h2⟩

theorem Holds.ne_none {own : Own ρ} {s : Slice} {l : List MergeCandidate} (h : Holds own s l) : own s.arr ≠ none := by
  obtain ⟨a, h1, _⟩ := h; rw [h1]; simp

theorem Holds.ne_list {own : Own ρ} {s : Slice} {l : List MergeCandidate} (h : Holds own s l) {r : Ref} {x : PList ρ}
    (hr : own r = some (.list x)) : s.arr ≠ r := by
  obtain ⟨a, h1, _⟩ := h
  intro e
  rw [e, hr] at h1
  cases h1

theorem wp_sliceAt {own : Own ρ} {s : Slice} {l : List MergeCandidate} {j : Nat} {c : MergeCandidate} {Q : MergeCandidate → Own ρ → Prop}
    (h : Holds own s l) (hj : l[j]? = some c) (hq : Q c own) : wp okObj (sliceAt s j) own Q := by
  obtain ⟨a, h1, h2, h3⟩ := h
  refine ⟨.buf a, h1, ?_⟩
  have e : Function.update own s.arr (some (id (.buf a))) = own := by rw [id, ← h1, Function.update_eq_self]
  rw [e]
  have : a.getD j 0 = c := by
    obtain ⟨b, rfl⟩ := h3
    have hl := (List.getElem?_eq_some_iff.1 hj).1
    rw [List.getD_eq_getElem?_getD, List.getElem?_append_left hl, hj]
    rfl
  simp only [wp, this]
  exact hq

theorem wp_sliceSet {own : Own ρ} {s : Slice} {l : List MergeCandidate} {j : Nat} {c : MergeCandidate} {Q : Unit → Own ρ → Prop}
    (h : Holds own s l) (hj : j < l.length)
    (hq : ∀ own', Holds own' s (l.set j c) → Changes own own' [s.arr] → Q () own') : wp okObj (sliceSet s j c) own Q := by
  obtain ⟨a, h1, h2, h3⟩ := h
  refine ⟨.buf a, h1, ?_⟩
  refine hq _ ⟨a.set j c, by simp, by simpa using h2, ?_⟩ (Changes.of_buf h1)
  obtain ⟨b, rfl⟩ := h3
  rw [List.set_append_left _ _ hj]
  exact List.prefix_append _ _

theorem wp_append {grow : Nat → Nat} {own : Own ρ} {s : Slice} {l : List MergeCandidate} {x : MergeCandidate} {Q : Slice → Own ρ → Prop}
    (h : Holds own s l)
    (hq : ∀ t own', Holds own' t (l ++ [x]) → (t.arr = s.arr ∨ own t.arr = none) → Changes own own' [s.arr] → Q t own') :
    wp okObj (append grow s x) own Q := by
  obtain ⟨a, h1, h2, h3⟩ := h
  refine ⟨.buf a, h1, ?_⟩
  obtain ⟨b, rfl⟩ := h3
  have hlen : s.len ≤ (l ++ b).length := by rw [List.length_append]; omega
  by_cases hc : s.len < (l ++ b).length
  · simp only [hc, if_true]
    refine hq _ _ ⟨(l ++ b).set s.len x, by simp, by simp [h2], ?_⟩ (.inl rfl) (Changes.of_buf h1)
    rw [List.set_append_right _ _ (by omega), h2, Nat.sub_self]
    cases b with
    | nil => simp at hc; omega
    | cons y b => exact ⟨b, by simp⟩
  · simp only [hc, if_false]
    have hb : b = [] := by
      rw [List.length_append] at hc
      exact List.eq_nil_of_length_eq_zero (by omega)
    subst hb
    intro r hr
    rw [← h1, Function.update_eq_self] at hr ⊢
    refine hq _ _ ⟨_, Function.update_self .., by simp [h2], ?_⟩ (.inr hr) (Changes.of_alloc hr _)
    rw [List.append_nil, h2, List.take_length]
    exact List.prefix_append _ _

/-! ### cp_merge.go -/

theorem wp_getCurrent {own : Own ρ} {it : Ref} {s : PList ρ} {Q : Except Err (Option Nat) → Own ρ → Prop} (h : own it = some (.list s))
    (hq : Q (getCurrent s) own) : wp okObj (hGetCurrent it) own Q := by
  unfold hGetCurrent
  rw [wp_do]
  refine wp_peek h ?_
  unfold getCurrent at hq
  split at hq <;> rename_i e <;> simp only [e] <;> first | exact hq | skip

theorem wp_advance {own : Own ρ} {it : Ref} {s : PList ρ} {Q : Except Err (Option Nat) → Own ρ → Prop} (h : own it = some (.list s))
    (hq : ∀ res own', (match advance s with
        | .error e => res = .error e
        | .ok (cur, s') => res = .ok cur ∧ own' it = some (.list s')) → Changes own own' [it] → Q res own') :
    wp okObj (hAdvance it) own Q := by
  unfold hAdvance
  rw [wp_do]
  refine wp_peek h ?_
  unfold advance at hq
  by_cases hn : ListIter.hasNext s = true
  · simp only [hn, if_true] at hq ⊢
    rw [wp_do]
    refine wp_onList h ?_
    have hc : Changes own (Function.update own it (some (.list (ListIter.next s).2))) [it] := Changes.of_list h (tag_next s)
    generalize ListIter.next s = p at hc hq
    obtain ⟨r, s'⟩ := p
    cases r with
    | ok v => exact hq _ _ ⟨rfl, by simp⟩ hc
    | error e => exact hq _ _ rfl hc
  · rw [if_neg hn] at hq
    rw [if_neg hn]
    exact hq _ _ ⟨rfl, h⟩ (Changes.refl _ _)

/-- What the loop leaves behind: the result of the loop over values, in a slice. -/
def SliceRes (own own' : Own ρ) (old : Slice) (acc : List MergeCandidate) (pure : Except Err (List MergeCandidate)) (res : Except Err Slice) : Prop :=
  match pure with
  | .error e => res = .error e
  | .ok l => ∃ t, res = .ok t ∧ Holds own' t (acc ++ l) ∧ (t.arr = old.arr ∨ own t.arr = none)

theorem SliceRes.cons {own own1 own2 : Own ρ} {old t : Slice} {acc : List MergeCandidate} {x : MergeCandidate}
    {pure : Except Err (List MergeCandidate)} {res : Except Err Slice} (h : SliceRes own1 own2 t (acc ++ [x]) pure res)
    (ht : t.arr = old.arr ∨ own t.arr = none) (hn : ∀ r, own1 r = none → own r = none) :
    SliceRes own own2 old acc (do return x :: (← pure)) res := by
  cases pure with
  | error e => exact h
  | ok l =>
    obtain ⟨u, h1, h2, h3⟩ := h
    refine ⟨u, h1, by simpa using h2, ?_⟩
    rcases h3 with h3 | h3
    · rw [h3]; exact ht
    · exact .inr (hn _ h3)

theorem Changes.none_of {o1 o2 : Own ρ} {S : List Ref} (h : Changes o1 o2 S) (hb : ∀ r ∈ S, o1 r ≠ none → o2 r ≠ none) {r : Ref}
    (hr : o2 r = none) : o1 r = none := by
  by_contra hc
  by_cases hS : r ∈ S
  · exact hb r hS hc hr
  · rw [h.keep r hc hS] at hr; exact hc hr

theorem Changes.ne_none_of {o1 o2 : Own ρ} {S : List Ref} (h : Changes o1 o2 S) (hS : ∀ r ∈ S, o1 r ≠ some .newBitmap) {r : Ref}
    (hr : o2 r = none) : o1 r = none := by
  by_contra hc
  by_cases hr' : r ∈ S
  · cases ho : o1 r with
    | none => exact hc ho
    | some o =>
      cases o with
      | buf a => obtain ⟨a', e⟩ := h.buf r a ho; rw [hr] at e; cases e
      | list s => obtain ⟨s', e, _⟩ := h.list r s ho; rw [hr] at e; cases e
      | newBitmap => exact hS r hr' ho
  · rw [h.keep r hc hr'] at hr; exact hc hr

theorem hScanLoop_spec {grow : Nat → Nat} {it : Ref} {cands : Slice} (fuel : Nat) :
    ∀ {own : Own ρ} {pre cs : List MergeCandidate} {cur : Option Nat} {st : PList ρ} {tmp : Slice} {acc : List MergeCandidate},
      own it = some (.list st) → Holds own cands (pre ++ cs) → Holds own tmp acc → cands.arr ≠ tmp.arr →
      wp okObj (hScanLoop grow it cands fuel pre.length cur tmp) own fun res own' =>
        SliceRes own own' tmp acc (scanLoop fuel cs cur st) res ∧ Changes own own' [it, cands.arr, tmp.arr] := by
  induction fuel with
  | zero =>
    intro own pre cs cur st tmp acc hit hca htm hne
    have hlen : cands.len = pre.length + cs.length := by obtain ⟨_, _, h, _⟩ := hca; simpa using h
    unfold hScanLoop
    cases cs with
    | nil =>
      rw [if_neg (by simp at hlen; omega)]
      cases cur with
      | none => exact ⟨⟨tmp, rfl, by simpa using htm, .inl rfl⟩, Changes.refl _ _⟩
      | some x => exact ⟨rfl, Changes.refl _ _⟩
    | cons c cs =>
      rw [if_pos (by simp at hlen; omega)]
      exact ⟨by cases cur <;> rfl, Changes.refl _ _⟩
  | succ fuel ih =>
    intro own pre cs cur st tmp acc hit hca htm hne
    have hlen : cands.len = pre.length + cs.length := by obtain ⟨_, _, h, _⟩ := hca; simpa using h
    have hS : ∀ r ∈ [it, cands.arr, tmp.arr], own r ≠ some .newBitmap := by
      intro r hr
      simp only [List.mem_cons, List.not_mem_nil, or_false] at hr
      rcases hr with rfl | rfl | rfl
      · rw [hit]; simp
      · obtain ⟨a, h, _⟩ := hca; rw [h]; simp
      · obtain ⟨a, h, _⟩ := htm; rw [h]; simp
    -- go on after an `append` to `tmp` (and possibly more changes)
    have goOn : ∀ {own1 : Own ρ} {t : Slice} {x : MergeCandidate} {pre' cs' : List MergeCandidate} {cur' : Option Nat} {st' : PList ρ},
        Holds own1 t (acc ++ [x]) → (t.arr = tmp.arr ∨ own t.arr = none) → Changes own own1 [it, cands.arr, tmp.arr] →
        own1 it = some (.list st') → Holds own1 cands (pre' ++ cs') →
        wp okObj (hScanLoop grow it cands fuel pre'.length cur' t) own1 fun res own' =>
          SliceRes own own' tmp acc (do return x :: (← scanLoop fuel cs' cur' st')) res ∧ Changes own own' [it, cands.arr, tmp.arr] := by
      intro own1 t x pre' cs' cur' st' h1 h2 h3 h4 h5
      have hne' : cands.arr ≠ t.arr := by
        rcases h2 with h2 | h2
        · rw [h2]; exact hne
        · intro e; rw [← e] at h2; exact hca.ne_none h2
      refine wp_mono (ih h4 h5 h1 hne') ?_
      rintro res own' ⟨h6, h7⟩
      refine ⟨h6.cons h2 (fun r hr => h3.ne_none_of hS hr), h3.trans h7 ?_⟩
      intro r hr
      simp only [List.mem_cons, List.not_mem_nil, or_false] at hr ⊢
      rcases hr with rfl | rfl | rfl
      · exact .inl (.inl rfl)
      · exact .inl (.inr (.inl rfl))
      · rcases h2 with h2 | h2
        · exact .inl (.inr (.inr h2))
        · exact .inr h2
    -- `append`, then `hAdvance`, then go on
    have appAdv : ∀ {own0 : Own ρ} {x : MergeCandidate} {pre' cs' : List MergeCandidate},
        Changes own own0 [it, cands.arr, tmp.arr] → (∀ r, own0 r = none → own r = none) → own0 it = some (.list st) →
        Holds own0 cands (pre' ++ cs') → Holds own0 tmp acc →
        wp okObj (do
          let tmp ← append grow tmp x
          match ← hAdvance it with
          | .error e => return .error e
          | .ok cur => hScanLoop grow it cands fuel pre'.length cur tmp) own0 fun res own' =>
          SliceRes own own' tmp acc (do
            let (cur, s') ← advance st
            return x :: (← scanLoop fuel cs' cur s')) res ∧ Changes own own' [it, cands.arr, tmp.arr] := by
      intro own0 x pre' cs' hc0 hn0 hit0 hca0 htm0
      rw [wp_do]
      refine wp_append htm0 ?_
      intro t own1 h1 h2 h3
      have hit1 : own1 it = some (.list st) := by
        rw [h3.keep it (by rw [hit0]; simp) (by simpa using (htm0.ne_list hit0).symm)]; exact hit0
      have hca1 : Holds own1 cands (pre' ++ cs') := hca0.keep h3 (by simpa using hne)
      have h01 : Changes own own1 [it, cands.arr, tmp.arr] := hc0.trans h3 (by simp)
      have ht : t.arr = tmp.arr ∨ own t.arr = none := h2.imp id (hn0 _)
      rw [wp_do]
      refine wp_advance hit1 ?_
      intro res own2 h4 h5
      have h02 : Changes own own2 [it, cands.arr, tmp.arr] := h01.trans h5 (by simp)
      cases ha : advance st with
      | error e =>
        rw [ha] at h4
        cases h4
        exact ⟨rfl, h02⟩
      | ok p =>
        obtain ⟨cur', s'⟩ := p
        rw [ha] at h4
        obtain ⟨rfl, h4⟩ := h4
        exact goOn (h1.keep h5 (by simpa using h1.ne_list hit1)) ht h02 h4 (hca1.keep h5 (by simpa using hca1.ne_list hit1))
    unfold hScanLoop
    cases cs with
    | nil =>
      rw [if_neg (by simp at hlen; omega)]
      cases cur with
      | none => exact ⟨⟨tmp, rfl, by simpa using htm, .inl rfl⟩, Changes.refl _ _⟩
      | some x => exact appAdv (Changes.refl _ _) (fun _ h => h) hit hca htm
    | cons c cs =>
      rw [if_pos (by simp at hlen; omega)]
      dsimp only
      rw [wp_do]
      refine wp_sliceAt hca (c := c) (by simp) ?_
      have hca' : Holds own cands ((pre ++ [c]) ++ cs) := by simpa using hca
      have app : ∀ {cur : Option Nat}, wp okObj (do
          let tmp ← append grow tmp c
          hScanLoop grow it cands fuel (pre.length + 1) cur tmp) own fun res own' =>
          SliceRes own own' tmp acc (do return c :: (← scanLoop fuel cs cur st)) res ∧ Changes own own' [it, cands.arr, tmp.arr] := by
        intro cur
        rw [wp_do]
        refine wp_append htm ?_
        intro t own1 h1 h2 h3
        have := goOn (pre' := pre ++ [c]) (cur' := cur) h1 h2 (h3.mono (by simp))
          (by rw [h3.keep it (by rw [hit]; simp) (by simpa using (htm.ne_list hit).symm)]; exact hit) (hca'.keep h3 (by simpa using hne))
        rwa [List.length_append, List.length_singleton] at this
      cases cur with
      | none => exact app
      | some x =>
        dsimp only [scanLoop]
        split
        · exact appAdv (Changes.refl _ _) (fun _ h => h) hit hca htm
        · split
          · exact app
          · cases hi : c.increment with
            | error e => exact ⟨rfl, Changes.refl _ _⟩
            | ok c' =>
              dsimp only
              rw [wp_do]
              refine wp_sliceSet hca (by simp) ?_
              intro own1 h1 h2
              rw [wp_do]
              refine wp_sliceAt h1 (c := c') (by simp) ?_
              have e : (pre ++ c :: cs).set pre.length c' = (pre ++ [c']) ++ cs := by simp
              rw [e] at h1
              have := appAdv (x := c') (h2.mono (by simp)) (fun r hr => (h2.mono (T := [it, cands.arr, tmp.arr]) (by simp)).ne_none_of hS hr)
                (by rw [h2.keep it (by rw [hit]; simp) (by simpa using (hca.ne_list hit).symm)]; exact hit) h1
                (htm.keep h2 (by simpa using hne.symm))
              rwa [List.length_append, List.length_singleton] at this

/-- The posting lists at the addresses `refs` have the states `ss`. -/
def Lists (own : Own ρ) (refs : List Ref) (ss : List (PList ρ)) : Prop := List.Forall₂ (fun r s => own r = some (.list s)) refs ss

theorem Lists.keep {o1 o2 : Own ρ} {S refs : List Ref} {ss : List (PList ρ)} (h : Lists o1 refs ss) (hc : Changes o1 o2 S)
    (hs : ∀ r ∈ refs, r ∉ S) : Lists o2 refs ss := by
  induction h with
  | nil => exact .nil
  | @cons r s refs ss h1 h2 ih =>
    refine .cons ?_ (ih fun r hr => hs r (by simp [hr]))
    rw [hc.keep r (by rw [h1]; simp) (hs r (by simp))]
    exact h1

theorem Lists.mem {own : Own ρ} {refs : List Ref} {ss : List (PList ρ)} (h : Lists own refs ss) {r : Ref} (hr : r ∈ refs) :
    ∃ s, own r = some (.list s) := by
  induction h with
  | nil => cases hr
  | cons h1 _ ih =>
    rcases List.mem_cons.1 hr with rfl | hr
    · exact ⟨_, h1⟩
    · exact ih hr

/-- The array is one of candidates. -/
def IsBuf (own : Own ρ) (r : Ref) : Prop := ∃ a, own r = some (.buf a)

theorem Holds.isBuf {own : Own ρ} {s : Slice} {l : List MergeCandidate} (h : Holds own s l) : IsBuf own s.arr := by
  obtain ⟨a, h, _⟩ := h; exact ⟨a, h⟩

theorem IsBuf.empty {own : Own ρ} {r : Ref} (h : IsBuf own r) : Holds own ⟨r, 0⟩ [] := by
  obtain ⟨a, h⟩ := h; exact ⟨a, h, rfl, List.nil_prefix⟩

theorem IsBuf.keep {o1 o2 : Own ρ} {S : List Ref} {r : Ref} (h : IsBuf o1 r) (hc : Changes o1 o2 S) : IsBuf o2 r := by
  obtain ⟨a, h⟩ := h; exact hc.buf r a h

theorem IsBuf.ne {own : Own ρ} {r q : Ref} {s : PList ρ} (h : IsBuf own r) (hq : own q = some (.list s)) : r ≠ q := by
  obtain ⟨a, h⟩ := h
  intro e
  rw [e, hq] at h
  cases h

/-- The pair (`candidates`, `tmp`) after a phase. -/
def PairRes (own own' : Own ρ) (S : List Ref) (pure : Except Err (List MergeCandidate)) (res : Except Err (Slice × Slice)) : Prop :=
  match pure with
  | .error e => res = .error e
  | .ok l => ∃ c t, res = .ok (c, t) ∧ Holds own' c l ∧ IsBuf own' t.arr ∧ c.arr ≠ t.arr ∧ (c.arr ∈ S ∨ own c.arr = none) ∧
      (t.arr ∈ S ∨ own t.arr = none)

theorem PairRes.weaken {own own1 own' : Own ρ} {S T : List Ref} {pure : Except Err (List MergeCandidate)} {res : Except Err (Slice × Slice)}
    (h : PairRes own1 own' T pure res) (hT : ∀ r ∈ T, r ∈ S ∨ own r = none) (hn : ∀ r, own1 r = none → own r = none) :
    PairRes own own' S pure res := by
  cases pure with
  | error e => exact h
  | ok l =>
    obtain ⟨c, t, h1, h2, h3, h4, h5, h6⟩ := h
    exact ⟨c, t, h1, h2, h3, h4, h5.elim (hT _) fun h => .inr (hn _ h), h6.elim (hT _) fun h => .inr (hn _ h)⟩

theorem hScanLists_spec {grow : Nat → Nat} {refs : List Ref} : ∀ {own : Own ρ} {ss : List (PList ρ)} {cands tmp : Slice} {l : List MergeCandidate},
    Lists own refs ss → refs.Nodup → Holds own cands l → IsBuf own tmp.arr → cands.arr ≠ tmp.arr →
    wp okObj (hScanLists grow refs cands tmp) own fun res own' =>
      PairRes own own' [cands.arr, tmp.arr] (scanLists ss l) res ∧ Changes own own' (cands.arr :: tmp.arr :: refs) := by
  induction refs with
  | nil =>
    intro own ss cands tmp l hl _ hc ht hne
    cases hl
    exact ⟨⟨cands, tmp, rfl, hc, ht, hne, by simp, by simp⟩, Changes.refl _ _⟩
  | cons it refs ih =>
    intro own ss cands tmp l hl hnd hc ht hne
    cases hl with
    | @cons _ s _ ss hs hl =>
    have hl : Lists own refs ss := hl
    rw [List.nodup_cons] at hnd
    have hlen : cands.len = l.length := by obtain ⟨_, _, h, _⟩ := hc; exact h
    unfold hScanLists
    rw [wp_do]
    refine wp_getCurrent hs ?_
    cases hg : getCurrent s with
    | error e => exact ⟨by simp [PairRes, scanLists, scanStep, hg, bind, Except.bind], Changes.refl _ _⟩
    | ok cur =>
      dsimp only
      rw [wp_do]
      refine wp_peek hs ?_
      rw [wp_do, hlen]
      refine wp_mono (hScanLoop_spec (pre := []) (cs := l) _ hs hc ht.empty hne) ?_
      rintro res own1 ⟨h1, h2⟩
      have hS : ∀ r ∈ [it, cands.arr, tmp.arr], own r ≠ some .newBitmap := by
        intro r hr
        simp only [List.mem_cons, List.not_mem_nil, or_false] at hr
        rcases hr with rfl | rfl | rfl
        · rw [hs]; simp
        · obtain ⟨a, h, _⟩ := hc; rw [h]; simp
        · obtain ⟨a, h⟩ := ht; rw [h]; simp
      cases hp : scanLoop (l.length + ListIter.len s + 1) l cur s with
      | error e =>
        rw [hp] at h1
        cases h1
        exact ⟨by simp [PairRes, scanLists, scanStep, hg, hp, bind, Except.bind], h2.mono (by simp)⟩
      | ok l' =>
        rw [hp] at h1
        obtain ⟨t, rfl, h3, h4⟩ := h1
        have hl1 : Lists own1 refs ss := hl.keep h2 (by
          intro r hr
          obtain ⟨x, hx⟩ := hl.mem hr
          simp only [List.mem_cons, List.not_mem_nil, or_false, not_or]
          exact ⟨fun e => hnd.1 (e ▸ hr), fun e => hc.ne_list hx e.symm, fun e => ht.ne hx e.symm⟩)
        have hne1 : t.arr ≠ cands.arr := by
          rcases h4 with h4 | h4
          · rw [h4]; exact hne.symm
          · intro e; rw [e] at h4; exact hc.ne_none h4
        refine wp_mono (ih hl1 hnd.2 h3 (hc.isBuf.keep h2) hne1) ?_
        rintro res own2 ⟨h5, h6⟩
        have e : scanLists (s :: ss) l = scanLists ss l' := by simp [scanLists, scanStep, hg, hp, bind, Except.bind]
        rw [e]
        have hT : ∀ r ∈ [t.arr, cands.arr], r ∈ [cands.arr, tmp.arr] ∨ own r = none := by
          intro r hr
          simp only [List.mem_cons, List.not_mem_nil, or_false] at hr ⊢
          rcases hr with rfl | rfl
          · exact h4.imp .inr id
          · exact .inl (.inl rfl)
        refine ⟨h5.weaken hT fun r hr => h2.ne_none_of hS hr, (h2.mono (T := cands.arr :: tmp.arr :: it :: refs) (by simp)).trans h6 ?_⟩
        intro r hr
        rcases List.mem_cons.1 hr with rfl | hr
        · rcases h4 with h4 | h4
          · exact .inl (by simp [h4])
          · exact .inr h4
        · refine .inl ?_
          rcases List.mem_cons.1 hr with rfl | hr
          · simp
          · simp [hr]

theorem getElem?_drop_zero {α : Type} {l : List α} {n : Nat} {c : α} {cs : List α} (hd : l.drop n = c :: cs) : l[n]? = some c := by
  have := congrArg (fun x => x[0]?) hd
  simpa using this

theorem hProbeLoop_spec {grow : Nat → Nat} {threshold left : Nat} {it : Ref} {cands : Slice} {l cs : List MergeCandidate} :
    ∀ {own : Own ρ} {st : PList ρ} {tmp : Slice} {acc : List MergeCandidate}, cs.length ≤ l.length → l.drop (l.length - cs.length) = cs →
      own it = some (.list st) → Holds own cands l → Holds own tmp acc → cands.arr ≠ tmp.arr →
      wp okObj (hProbeLoop grow threshold left it cands cs.length tmp) own fun res own' =>
        SliceRes own own' tmp acc (probeLoop threshold left cs st) res ∧ Changes own own' [it, cands.arr, tmp.arr] := by
  induction cs with
  | nil =>
    intro own st tmp acc _ _ hit hca htm hne
    exact ⟨⟨tmp, rfl, by simpa using htm, .inl rfl⟩, Changes.refl _ _⟩
  | cons c cs ih =>
    intro own st tmp acc hle hd hit hca htm hne
    have hlen : cands.len = l.length := by obtain ⟨_, _, h, _⟩ := hca; exact h
    have hd' : l.drop (l.length - cs.length) = cs := by
      have := congrArg List.tail hd
      rw [List.tail_drop, List.tail_cons] at this
      rw [← this]
      congr 1
      simp at hle ⊢
      omega
    have hS : ∀ r ∈ [it, cands.arr, tmp.arr], own r ≠ some .newBitmap := by
      intro r hr
      simp only [List.mem_cons, List.not_mem_nil, or_false] at hr
      rcases hr with rfl | rfl | rfl
      · rw [hit]; simp
      · obtain ⟨a, h, _⟩ := hca; rw [h]; simp
      · obtain ⟨a, h, _⟩ := htm; rw [h]; simp
    unfold hProbeLoop
    rw [List.length_cons]
    dsimp only
    rw [wp_do, hlen]
    refine wp_sliceAt hca (getElem?_drop_zero hd) ?_
    rw [wp_do]
    refine wp_onList hit ?_
    have hc1 : Changes own (Function.update own it (some (.list (ListIter.lowerBound st c.position).2))) [it, cands.arr, tmp.arr] :=
      (Changes.of_list hit (tag_lowerBound st c.position)).mono (by simp)
    have hit1 : Function.update own it (some (.list (ListIter.lowerBound st c.position).2)) it = some (.list (ListIter.lowerBound st c.position).2) := by
      simp
    have hca1 := hca.keep (Changes.of_list hit (tag_lowerBound st c.position)) (by simpa using hca.ne_list hit)
    have htm1 := htm.keep (Changes.of_list hit (tag_lowerBound st c.position)) (by simpa using htm.ne_list hit)
    generalize Function.update own it (some (.list (ListIter.lowerBound st c.position).2)) = own1 at *
    rw [show probeLoop threshold left (c :: cs) st = (do
      let c' ← bumpIfHit c c.position (ListIter.lowerBound st c.position).1
      let rest ← probeLoop threshold left cs (ListIter.lowerBound st c.position).2
      if c'.overlap + left ≥ threshold then return c' :: rest else return rest) from rfl]
    generalize (ListIter.lowerBound st c.position).2 = st1 at *
    generalize bumpIfHit c c.position (ListIter.lowerBound st c.position).1 = b
    cases b with
    | error e => exact ⟨rfl, hc1⟩
    | ok c' =>
      dsimp only
      have e1 : ((Except.ok c' : Except Err MergeCandidate) >>= fun c' => do
          let rest ← probeLoop threshold left cs st1
          if c'.overlap + left ≥ threshold then return c' :: rest else return rest) =
        (probeLoop threshold left cs st1 >>= fun rest => if c'.overlap + left ≥ threshold then return c' :: rest else return rest) := rfl
      rw [e1]
      by_cases hth : c'.overlap + left ≥ threshold
      · simp only [hth, if_true]
        rw [wp_do]
        refine wp_append htm1 ?_
        intro t own2 h1 h2 h3
        have hca2 := hca1.keep h3 (by simpa using hne)
        have hne2 : cands.arr ≠ t.arr := by
          rcases h2 with h2 | h2
          · rw [h2]; exact hne
          · intro e; rw [← e] at h2; exact hca1.ne_none h2
        have hit2 : own2 it = some (.list st1) := by
          rw [h3.keep it (by rw [hit1]; simp) (by simpa using (htm1.ne_list hit1).symm)]; exact hit1
        have ht : t.arr = tmp.arr ∨ own t.arr = none := h2.imp id fun h => hc1.ne_none_of hS h
        have hc2 : Changes own own2 [it, cands.arr, tmp.arr] := hc1.trans h3 (by simp)
        refine wp_mono (ih (by simp at hle; omega) hd' hit2 hca2 h1 hne2) ?_
        rintro res own' ⟨h6, h7⟩
        refine ⟨h6.cons ht (fun r hr => hc2.ne_none_of hS hr), hc2.trans h7 ?_⟩
        intro r hr
        simp only [List.mem_cons, List.not_mem_nil, or_false] at hr ⊢
        rcases hr with rfl | rfl | rfl
        · exact .inl (.inl rfl)
        · exact .inl (.inr (.inl rfl))
        · exact ht.imp (fun h => .inr (.inr h)) id
      · simp only [hth, if_false]
        refine wp_mono (ih (by simp at hle; omega) hd' hit1 hca1 htm1 hne) ?_
        rintro res own' ⟨h6, h7⟩
        refine ⟨?_, hc1.trans h7 (by simp)⟩
        cases hp : probeLoop threshold left cs st1 with
        | error e => rw [hp] at h6; exact h6
        | ok rest =>
          rw [hp] at h6
          obtain ⟨t, h8, h9, h10⟩ := h6
          exact ⟨t, h8, h9, h10.imp id fun h => hc1.ne_none_of hS h⟩

theorem hProbeLists_spec {grow : Nat → Nat} {threshold : Nat} {refs : List Ref} :
    ∀ {own : Own ρ} {ss : List (PList ρ)} {cands tmp : Slice} {l : List MergeCandidate},
    Lists own refs ss → refs.Nodup → Holds own cands l → IsBuf own tmp.arr → cands.arr ≠ tmp.arr →
    wp okObj (hProbeLists grow threshold refs cands tmp) own fun res own' =>
      PairRes own own' [cands.arr, tmp.arr] (probeLists threshold ss l) res ∧ Changes own own' (cands.arr :: tmp.arr :: refs) := by
  induction refs with
  | nil =>
    intro own ss cands tmp l hl _ hc ht hne
    cases hl
    exact ⟨⟨cands, tmp, rfl, hc, ht, hne, by simp, by simp⟩, Changes.refl _ _⟩
  | cons it refs ih =>
    intro own ss cands tmp l hl hnd hc ht hne
    cases hl with
    | @cons _ s _ ss hs hl =>
    have hl : Lists own refs ss := hl
    rw [List.nodup_cons] at hnd
    have hlen : cands.len = l.length := by obtain ⟨_, _, h, _⟩ := hc; exact h
    unfold hProbeLists
    rw [hlen]
    by_cases h0 : l.length = 0
    · rw [if_pos h0]
      have : l = [] := List.eq_nil_of_length_eq_zero h0
      subst this
      exact ⟨⟨cands, tmp, rfl, hc, ht, hne, by simp, by simp⟩, Changes.refl _ _⟩
    · rw [if_neg h0, wp_do, hl.length_eq]
      refine wp_mono (hProbeLoop_spec (l := l) (cs := l) (Nat.le_refl _) (by simp) hs hc ht.empty hne) ?_
      rintro res own1 ⟨h1, h2⟩
      have hS : ∀ r ∈ [it, cands.arr, tmp.arr], own r ≠ some .newBitmap := by
        intro r hr
        simp only [List.mem_cons, List.not_mem_nil, or_false] at hr
        rcases hr with rfl | rfl | rfl
        · rw [hs]; simp
        · obtain ⟨a, h, _⟩ := hc; rw [h]; simp
        · obtain ⟨a, h⟩ := ht; rw [h]; simp
      have hemp : l.isEmpty = false := by cases l with | nil => exact absurd rfl h0 | cons => rfl
      cases hp : probeLoop threshold ss.length l s with
      | error e =>
        rw [hp] at h1
        cases h1
        exact ⟨by simp [PairRes, probeLists, hemp, hp, bind, Except.bind], h2.mono (by simp)⟩
      | ok l' =>
        rw [hp] at h1
        obtain ⟨t, rfl, h3, h4⟩ := h1
        have hl1 : Lists own1 refs ss := hl.keep h2 (by
          intro r hr
          obtain ⟨x, hx⟩ := hl.mem hr
          simp only [List.mem_cons, List.not_mem_nil, or_false, not_or]
          exact ⟨fun e => hnd.1 (e ▸ hr), fun e => hc.ne_list hx e.symm, fun e => ht.ne hx e.symm⟩)
        have hne1 : t.arr ≠ cands.arr := by
          rcases h4 with h4 | h4
          · rw [h4]; exact hne.symm
          · intro e; rw [e] at h4; exact hc.ne_none h4
        refine wp_mono (ih hl1 hnd.2 h3 (hc.isBuf.keep h2) hne1) ?_
        rintro res own2 ⟨h5, h6⟩
        have e : probeLists threshold (s :: ss) l = probeLists threshold ss l' := by simp [probeLists, hemp, hp, bind, Except.bind]
        rw [e]
        have hT : ∀ r ∈ [t.arr, cands.arr], r ∈ [cands.arr, tmp.arr] ∨ own r = none := by
          intro r hr
          simp only [List.mem_cons, List.not_mem_nil, or_false] at hr ⊢
          rcases hr with rfl | rfl
          · exact h4.imp .inr id
          · exact .inl (.inl rfl)
        refine ⟨h5.weaken hT fun r hr => h2.ne_none_of hS hr, (h2.mono (T := cands.arr :: tmp.arr :: it :: refs) (by simp)).trans h6 ?_⟩
        intro r hr
        rcases List.mem_cons.1 hr with rfl | hr
        · rcases h4 with h4 | h4
          · exact .inl (by simp [h4])
          · exact .inr h4
        · refine .inl ?_
          rcases List.mem_cons.1 hr with rfl | hr
          · simp
          · simp [hr]

section
variable {κ : Type} {collect : κ → MergeCandidate → κ × CollectRes Err}

theorem hReport_spec {threshold : Nat} {cands : Slice} {l cs : List MergeCandidate} :
    ∀ {own : Own ρ} {k : κ} {Q : κ × Option Err → Own ρ → Prop}, cs.length ≤ l.length → l.drop (l.length - cs.length) = cs →
      Holds own cands l → Q (report collect threshold k cs) own → wp okObj (hReport collect threshold cands cs.length k) own Q := by
  induction cs with
  | nil => intro own k Q _ _ _ hq; exact hq
  | cons c cs ih =>
    intro own k Q hle hd hca hq
    have hlen : cands.len = l.length := by obtain ⟨_, _, h, _⟩ := hca; exact h
    have hd' : l.drop (l.length - cs.length) = cs := by
      have := congrArg List.tail hd
      rw [List.tail_drop, List.tail_cons] at this
      rw [← this]
      congr 1
      simp at hle ⊢
      omega
    have hle' : cs.length ≤ l.length := by simp at hle; omega
    unfold hReport
    rw [List.length_cons]
    dsimp only
    rw [wp_do, hlen]
    refine wp_sliceAt hca (getElem?_drop_zero hd) ?_
    unfold report at hq
    by_cases h : c.overlap ≥ threshold
    · rw [if_pos h] at hq
      rw [if_pos h]
      generalize collect k c = p at hq
      obtain ⟨k', r⟩ := p
      cases r with
      | ok => exact ih hle' hd' hca hq
      | terminated => exact hq
      | err e => exact hq
    · rw [if_neg h] at hq
      rw [if_neg h]
      exact ih hle' hd' hca hq

/-! ### Sorting -/

/-- `sort.Sort(rid)` on values. -/
def permSort (order : List Nat → List Nat) (ss : List (PList ρ)) : List (PList ρ) := permute (order (ss.map ListIter.len)) ss

theorem permute_perm {α : Type} {is : List Nat} {l : List α} (h : is.Perm (List.range l.length)) : (permute is l).Perm l := by
  refine (h.filterMap _).trans (List.Perm.of_eq ?_)
  clear h
  induction l using List.reverseRecOn with
  | nil => rfl
  | append_singleton l a ih =>
    rw [List.length_append, List.length_singleton, List.range_succ, List.filterMap_append]
    congr 1
    · conv_rhs => rw [← ih]
      apply List.filterMap_congr
      intro i hi
      rw [List.getElem?_append_left (List.mem_range.1 hi)]
    · simp

theorem permSort_perm {order : List Nat → List Nat} (h : ∀ ns, (order ns).Perm (List.range ns.length)) (ss : List (PList ρ)) :
    (permSort order ss).Perm ss := permute_perm (by simpa using h (ss.map ListIter.len))

theorem mem_permute {α : Type} {is : List Nat} {l : List α} {x : α} (h : x ∈ permute is l) : x ∈ l := by
  obtain ⟨i, _, h⟩ := List.mem_filterMap.1 h
  exact List.mem_of_getElem? h

theorem Lists.permute {own : Own ρ} {refs : List Ref} {ss : List (PList ρ)} (h : Lists own refs ss) (is : List Nat) :
    Lists own (permute is refs) (permute is ss) := by
  have hl : refs.length = ss.length := List.Forall₂.length_eq h
  have hget : ∀ i (h1 : i < refs.length) (h2 : i < ss.length), own refs[i] = some (.list ss[i]) := by
    intro i h1 h2
    exact List.Forall₂.get h h1 h2
  induction is with
  | nil => exact .nil
  | cons i is ih =>
    unfold Pool.permute at ih ⊢
    by_cases hi : i < refs.length
    · rw [List.filterMap_cons, List.filterMap_cons, List.getElem?_eq_getElem hi, List.getElem?_eq_getElem (hl ▸ hi)]
      exact .cons (hget i hi (hl ▸ hi)) ih
    · rw [List.filterMap_cons, List.filterMap_cons, List.getElem?_eq_none (by omega), List.getElem?_eq_none (by omega)]
      exact ih

theorem nodup_permute {is : List Nat} {refs : List Ref} (h : is.Nodup) (hr : refs.Nodup) : (permute is refs).Nodup := by
  refine List.Nodup.filterMap ?_ h
  intro i j r hi hj
  obtain ⟨h1, h2⟩ := List.getElem?_eq_some_iff.1 hi
  obtain ⟨h3, h4⟩ := List.getElem?_eq_some_iff.1 hj
  exact (hr.getElem_inj_iff).1 (h2.trans h4.symm)

theorem hLens_spec {refs : List Ref} : ∀ {own : Own ρ} {ss : List (PList ρ)} {Q : List Nat → Own ρ → Prop}, Lists own refs ss →
    Q (ss.map ListIter.len) own → wp okObj (hLens refs) own Q := by
  induction refs with
  | nil => intro own ss Q h hq; cases h; exact hq
  | cons r refs ih =>
    intro own ss Q h hq
    cases h with
    | cons h1 h2 =>
    unfold hLens
    rw [wp_do]
    refine wp_peek h1 ?_
    rw [wp_do]
    exact ih h2 hq

theorem hSort_spec {order : List Nat → List Nat} {refs : List Ref} {own : Own ρ} {ss : List (PList ρ)} {Q : List Ref → Own ρ → Prop}
    (h : Lists own refs ss) (hq : Q (permute (order (ss.map ListIter.len)) refs) own) : wp okObj (hSort order refs) own Q := by
  unfold hSort
  rw [wp_do]
  exact hLens_spec h hq

/-! ### Merge -/

theorem hCpBody_spec {grow : Nat → Nat} {rid : List Ref} {T : Nat} {tmp cands : Ref} {k : κ} {own : Own ρ} {ss : List (PList ρ)}
    (hl : Lists own rid ss) (hnd : rid.Nodup) (ht : IsBuf own tmp) (hc : IsBuf own cands) (hne : cands ≠ tmp) :
    wp okObj (hCpBody collect grow rid T ⟨tmp, 0⟩ ⟨cands, 0⟩ k) own fun res own' =>
      res = cpMergeMerge collect id ss T k ∧ Changes own own' (cands :: tmp :: rid) := by
  have hlen : rid.length = ss.length := List.Forall₂.length_eq hl
  unfold hCpBody cpMergeMerge
  simp only [id, hlen]
  split
  · exact ⟨rfl, Changes.refl _ _⟩
  · rw [wp_do]
    generalize ss.length + 1 - T = n
    have hnd' : (rid.take n ++ rid.drop n).Nodup := by rw [List.take_append_drop]; exact hnd
    have hdisj : ∀ r ∈ rid.drop n, r ∉ rid.take n := fun r h1 h2 => (List.nodup_append.1 hnd').2.2 r h2 r h1 rfl
    have hl2 : Lists own (rid.drop n) (ss.drop n) := List.forall₂_drop n hl
    refine wp_mono (hScanLists_spec (List.forall₂_take n hl) ((List.take_sublist n rid).nodup hnd) hc.empty ht hne) ?_
    rintro res own1 ⟨h1, h2⟩
    have hS : ∀ r ∈ cands :: tmp :: rid.take n, own r ≠ some .newBitmap := by
      intro r hr
      rcases List.mem_cons.1 hr with rfl | hr
      · obtain ⟨a, h⟩ := hc; rw [h]; simp
      · rcases List.mem_cons.1 hr with rfl | hr
        · obtain ⟨a, h⟩ := ht; rw [h]; simp
        · obtain ⟨x, h⟩ := hl.mem (List.mem_of_mem_take hr); rw [h]; simp
    have hsub : ∀ r ∈ cands :: tmp :: rid.take n, r ∈ cands :: tmp :: rid := by
      intro r hr
      rcases List.mem_cons.1 hr with rfl | hr
      · simp
      · rcases List.mem_cons.1 hr with rfl | hr
        · simp
        · simp [List.mem_of_mem_take hr]
    cases hp : scanLists (ss.take n) [] with
    | error e =>
      rw [hp] at h1
      cases h1
      exact ⟨rfl, h2.mono hsub⟩
    | ok l =>
      rw [hp] at h1
      obtain ⟨c, t, rfl, h3, h4, h5, h6, h7⟩ := h1
      dsimp only
      rw [wp_do]
      have hl3 : Lists own1 (rid.drop n) (ss.drop n) := hl2.keep h2 (by
        intro r hr hm
        obtain ⟨x, hx⟩ := hl2.mem hr
        rcases List.mem_cons.1 hm with rfl | hm
        · exact hc.ne hx rfl
        · rcases List.mem_cons.1 hm with rfl | hm
          · exact ht.ne hx rfl
          · exact hdisj r hr hm)
      refine wp_mono (hProbeLists_spec hl3 ((List.drop_sublist n rid).nodup hnd) h3 h4 h5) ?_
      rintro res own2 ⟨h8, h9⟩
      have hch : Changes own own2 (cands :: tmp :: rid) := (h2.mono hsub).trans h9 (by
        intro r hr
        rcases List.mem_cons.1 hr with rfl | hr
        · refine h6.imp ?_ id
          intro h; simp only [List.mem_cons, List.not_mem_nil, or_false] at h; rcases h with h | h <;> simp [h]
        · rcases List.mem_cons.1 hr with rfl | hr
          · refine h7.imp ?_ id
            intro h; simp only [List.mem_cons, List.not_mem_nil, or_false] at h; rcases h with h | h <;> simp [h]
          · exact .inl (by simp [List.mem_of_mem_drop hr]))
      cases hq : probeLists T (ss.drop n) l with
      | error e =>
        rw [hq] at h8
        cases h8
        exact ⟨rfl, hch⟩
      | ok l' =>
        rw [hq] at h8
        obtain ⟨c', t', rfl, h10, _⟩ := h8
        dsimp only
        have hlen' : c'.len = l'.length := by obtain ⟨_, _, h, _⟩ := h10; exact h
        rw [hlen']
        exact hReport_spec (Nat.le_refl _) (by simp) h10 ⟨rfl, hch⟩

theorem hCpMerge_spec {grow : Nat → Nat} {order : List Nat → List Nat} (ho : ∀ ns, (order ns).Perm (List.range ns.length)) {rid : List Ref} {T : Nat} {k : κ} {own : Own ρ}
    {ss : List (PList ρ)} (hl : Lists own rid ss) (hnd : rid.Nodup) :
    wp okObj (hCpMerge collect grow order rid T k) own fun res own' =>
      res = cpMergeMerge collect (permSort order) ss T k ∧ Changes own own' rid := by
  unfold hCpMerge
  rw [wp_do]
  refine hSort_spec (order := order) hl ?_
  rw [wp_do]
  intro tmp v1 hr1 hv1
  obtain ⟨a1, rfl⟩ := hv1
  show wp okObj (Prog.bind _ _) _ _
  rw [wp_bind]
  intro cands v2 hr2 hv2
  obtain ⟨a2, rfl⟩ := hv2
  show wp okObj (Prog.bind _ _) _ _
  rw [wp_bind]
  have hne : cands ≠ tmp := by rintro rfl; simp at hr2
  have hr2' : own cands = none := by rwa [Function.update_of_ne hne] at hr2
  have hc1 := Changes.of_alloc (o := (.buf a1 : Obj ρ)) hr1 []
  have hc2 := Changes.of_alloc (o := (.buf a2 : Obj ρ)) hr2 []
  have hc := hc1.trans hc2 (by simp)
  have hl2 := (hl.permute (order (ss.map ListIter.len))).keep hc (by simp)
  refine wp_mono (hCpBody_spec hl2 (nodup_permute ((ho _).nodup_iff.2 List.nodup_range) hnd) (tmp := tmp) (cands := cands)
    ⟨a1, by rw [Function.update_of_ne (Ne.symm hne)]; simp⟩ ⟨a2, by simp⟩ hne) ?_
  rintro res own1 ⟨h1, h2⟩
  obtain ⟨b2, e2⟩ := h2.buf cands a2 (by simp)
  obtain ⟨b1, e1⟩ := h2.buf tmp a1 (by rw [Function.update_of_ne (Ne.symm hne)]; simp)
  refine ⟨_, e2, ⟨b2, rfl⟩, _, ?_, ⟨b1, rfl⟩, h1, ?_⟩
  · rw [Function.update_of_ne (Ne.symm hne)]; exact e1
  · have hch : Changes own own1 (cands :: tmp :: rid) := (hc.mono (T := cands :: tmp :: rid) (by simp)).trans h2 (by
      intro r hr
      rcases List.mem_cons.1 hr with rfl | hr
      · simp
      · rcases List.mem_cons.1 hr with rfl | hr
        · simp
        · simp [mem_permute hr])
    have hoff : ∀ r, own r ≠ none → Function.update (Function.update own1 cands none) tmp none r = own1 r := by
      intro r hr
      rw [Function.update_of_ne (fun e => hr (by rw [e]; exact hr1)), Function.update_of_ne (fun e => hr (by rw [e]; exact hr2'))]
    refine ⟨?_, ?_, ?_⟩
    · intro r hr hS
      rw [hoff r hr]
      refine hch.keep r hr ?_
      simp only [List.mem_cons, not_or]
      exact ⟨fun e => hr (by rw [e]; exact hr2'), fun e => hr (by rw [e]; exact hr1), hS⟩
    · intro r a hr
      rw [hoff r (by rw [hr]; simp)]
      exact hch.buf r a hr
    · intro r x hr
      rw [hoff r (by rw [hr]; simp)]
      exact hch.list r x hr

/-! ### Intersect -/

theorem hIntersectAll_spec {item : Nat} {refs : List Ref} : ∀ {own : Own ρ} {ss : List (PList ρ)}, Lists own refs ss → refs.Nodup →
    wp okObj (hIntersectAll item refs) own fun res own' =>
      (match intersectAll item ss with
        | .error e => res = .error e
        | .ok (b, ss') => res = .ok b ∧ Lists own' refs ss') ∧ Changes own own' refs := by
  induction refs with
  | nil => intro own ss h _; cases h; exact ⟨⟨rfl, .nil⟩, Changes.refl _ _⟩
  | cons it refs ih =>
    intro own ss h hnd
    cases h with
    | @cons _ s _ ss hs hl =>
    have hl : Lists own refs ss := hl
    rw [List.nodup_cons] at hnd
    unfold hIntersectAll
    rw [wp_do]
    refine wp_onList hs ?_
    have hc1 : Changes own (Function.update own it (some (.list (ListIter.lowerBound s item).2))) [it] :=
      Changes.of_list hs (tag_lowerBound s item)
    have hit1 : Function.update own it (some (.list (ListIter.lowerBound s item).2)) it = some (.list (ListIter.lowerBound s item).2) := by simp
    have hl1 := hl.keep hc1 (fun r hr => by simp only [List.mem_singleton]; exact fun e => hnd.1 (e ▸ hr))
    generalize Function.update own it (some (.list (ListIter.lowerBound s item).2)) = own1 at *
    unfold intersectAll
    generalize ListIter.lowerBound s item = p at *
    obtain ⟨r, s'⟩ := p
    have hcm : Changes own own1 (it :: refs) := hc1.mono (by simp)
    cases r with
    | error e =>
      cases e with
      | notDereferencable => exact ⟨⟨rfl, .cons hit1 hl1⟩, hcm⟩
      | _ => exact ⟨rfl, hcm⟩
    | ok lower =>
      dsimp only
      by_cases he : lower ≠ item
      · rw [if_pos he, if_pos he]
        exact ⟨⟨rfl, .cons hit1 hl1⟩, hcm⟩
      · rw [if_neg he, if_neg he]
        refine wp_mono (ih hl1 hnd.2) ?_
        rintro res own2 ⟨h1, h2⟩
        have hc2 : Changes own own2 (it :: refs) := hcm.trans h2 (fun r hr => .inl (by simp [hr]))
        cases hi : intersectAll item ss with
        | error e => rw [hi] at h1; cases h1; exact ⟨rfl, hc2⟩
        | ok q =>
          obtain ⟨b, ss'⟩ := q
          rw [hi] at h1
          obtain ⟨rfl, h1⟩ := h1
          refine ⟨⟨rfl, .cons ?_ h1⟩, hc2⟩
          rw [h2.keep it (by rw [hit1]; simp) hnd.1]
          exact hit1

theorem hIntersectLoop_spec {n : Nat} {first : Ref} {rest : List Ref} (fuel : Nat) :
    ∀ {own : Own ρ} {item : Nat} {s : PList ρ} {ss : List (PList ρ)} {k : κ}, own first = some (.list s) → Lists own rest ss →
      (first :: rest).Nodup →
      wp okObj (hIntersectLoop collect n first rest fuel item k) own fun res own' =>
        res = intersectLoop collect n fuel item s ss k ∧ Changes own own' (first :: rest) := by
  induction fuel with
  | zero => intro own item s ss k _ _ _; exact ⟨rfl, Changes.refl _ _⟩
  | succ fuel ih =>
    intro own item s ss k hf hl hnd
    unfold hIntersectLoop intersectLoop
    rw [wp_do]
    refine wp_mono (hIntersectAll_spec hl (List.nodup_cons.1 hnd).2) ?_
    rintro res own1 ⟨h1, h2⟩
    have hc1 : Changes own own1 (first :: rest) := h2.mono (by intro r hr; simp [hr])
    have hf1 : own1 first = some (.list s) := by
      rw [h2.keep first (by rw [hf]; simp) (List.nodup_cons.1 hnd).1]; exact hf
    cases hi : intersectAll item ss with
    | error e => rw [hi] at h1; cases h1; exact ⟨rfl, hc1⟩
    | ok q =>
      obtain ⟨good, ss'⟩ := q
      rw [hi] at h1
      obtain ⟨rfl, hl1⟩ := h1
      dsimp only
      have go : ∀ (k : κ) (R : κ × Option Err), (ListIter.hasNext s = false → R = (k, none)) →
          (∀ r s', ListIter.hasNext s = true → ListIter.next s = (r, s') →
            R = match r with | .error e => (k, some e) | .ok item' => intersectLoop collect n fuel item' s' ss' k) →
          wp okObj (hIntersectNext first (hIntersectLoop collect n first rest fuel) k) own1 fun res own' =>
          res = R ∧ Changes own own' (first :: rest) := by
        intro k R hR1 hR2
        unfold hIntersectNext
        rw [wp_do]
        refine wp_peek hf1 ?_
        cases hn : ListIter.hasNext s with
        | false => exact ⟨(hR1 hn).symm, hc1⟩
        | true =>
          have hR := hR2 (ListIter.next s).1 (ListIter.next s).2 hn rfl
          simp only [Bool.not_true, Bool.false_eq_true, if_false]
          rw [wp_do]
          refine wp_onList hf1 ?_
          have hcf : Changes own1 (Function.update own1 first (some (.list (ListIter.next s).2))) [first] :=
            Changes.of_list hf1 (tag_next s)
          have hf2 : Function.update own1 first (some (.list (ListIter.next s).2)) first = some (.list (ListIter.next s).2) := by simp
          have hl2 := hl1.keep hcf (fun r hr => by simp only [List.mem_singleton]; exact fun e => (List.nodup_cons.1 hnd).1 (e ▸ hr))
          generalize Function.update own1 first (some (.list (ListIter.next s).2)) = own2 at *
          clear hR2
          generalize ListIter.next s = p at *
          obtain ⟨r, s'⟩ := p
          have hc2 : Changes own own2 (first :: rest) := hc1.trans hcf (by simp)
          cases r with
          | error e => exact ⟨hR.symm, hc2⟩
          | ok item' =>
            refine wp_mono (ih hf2 hl2 hnd) ?_
            rintro res own3 ⟨h3, h4⟩
            exact ⟨h3.trans hR.symm, hc2.trans h4 (fun r hr => .inl hr)⟩
      cases good with
      | false =>
        simp only [Bool.false_eq_true, if_false]
        refine go k _ (fun h => by rw [h]; rfl) (fun r s' h1 h2 => ?_)
        rw [h1, h2]
        cases r <;> rfl
      | true =>
        simp only [if_true]
        generalize collect k (MergeCandidate.new item n) = p
        obtain ⟨k', r⟩ := p
        cases r with
        | ok =>
          dsimp only
          refine go k' _ (fun h => by rw [h]; rfl) (fun r s' h1 h2 => ?_)
          rw [h1, h2]
          cases r <;> rfl
        | terminated => exact ⟨rfl, hc1⟩
        | err e => exact ⟨rfl, hc1⟩

theorem hIntersect_spec {order : List Nat → List Nat} (ho : ∀ ns, (order ns).Perm (List.range ns.length)) {rid : List Ref} {k : κ} {own : Own ρ}
    {ss : List (PList ρ)} (hl : Lists own rid ss) (hnd : rid.Nodup) :
    wp okObj (hIntersect collect order rid k) own fun res own' =>
      res = intersect collect (permSort order) ss k ∧ Changes own own' rid := by
  unfold hIntersect
  rw [wp_do]
  refine hSort_spec (order := order) hl ?_
  have hl2 := hl.permute (order (ss.map ListIter.len))
  have hnd2 := nodup_permute (is := order (ss.map ListIter.len)) ((ho _).nodup_iff.2 List.nodup_range) hnd
  have hm : ∀ r ∈ permute (order (ss.map ListIter.len)) rid, r ∈ rid := fun r hr => mem_permute hr
  unfold intersect permSort
  generalize permute (order (ss.map ListIter.len)) rid = refs at *
  generalize permute (order (ss.map ListIter.len)) ss = ss' at *
  cases hl2 with
  | nil => exact ⟨rfl, Changes.refl _ _⟩
  | @cons first s rest ss2 h1 h2 =>
    dsimp only
    rw [wp_do]
    refine wp_peek h1 ?_
    cases hg : ListIter.get s with
    | error e => exact ⟨rfl, Changes.refl _ _⟩
    | ok item =>
      dsimp only
      rw [wp_do]
      refine wp_peek h1 ?_
      rw [List.Forall₂.length_eq h2]
      refine wp_mono (hIntersectLoop_spec _ h1 h2 hnd2) ?_
      rintro res own' ⟨h3, h4⟩
      exact ⟨h3, h4.mono hm⟩

theorem hMerge_spec {grow : Nat → Nat} {order : List Nat → List Nat} (ho : ∀ ns, (order ns).Perm (List.range ns.length)) {rid : List Ref} {T : Int} {k : κ} {own : Own ρ}
    {ss : List (PList ρ)} (hl : Lists own rid ss) (hnd : rid.Nodup) :
    wp okObj (hMerge collect grow order rid T k) own fun res own' =>
      res = cpMerge collect (permSort order) ss T k ∧ Changes own own' rid := by
  unfold hMerge cpMerge optimizerMerge
  dsimp only
  rw [List.Forall₂.length_eq hl]
  split
  · exact ⟨rfl, Changes.refl _ _⟩
  · split
    · exact hIntersect_spec ho hl hnd
    · exact hCpMerge_spec ho hl hnd

/-! ### Search -/

/-- The object can be released to the pool it came from. -/
def Releasable (own : Own ρ) (r : Ref) : Prop :=
  (∃ s, own r = some (.list s) ∧ (tag s = (.vb, 0) ∨ tag s = (.skip, skippingGapSize) ∨ tag s = (.bitmap, 0))) ∨ own r = some .newBitmap

theorem skip_init_stale (a b : SkipList) (h : a.skippingGap = b.skippingGap) (ctx : PLContext) : SkipList.init a ctx = SkipList.init b ctx := by
  unfold SkipList.init SkipList.readSkipping
  dsimp only
  cases ctx.reader.readUInt16 with
  | mk r inp =>
    cases r with
    | error e => rfl
    | ok w =>
      dsimp only
      cases inp.readVUInt32 with
      | mk r inp =>
        cases r with
        | error e => rfl
        | ok c => simp only [h]

theorem initObj_spec {ctx : PLContext} {o : Obj ρ} (ho : okObj (resolve ctx) o) (stale : SkipList) :
    (match openPList ρ stale ctx with
      | .error e => (initObj ctx o).1 = some e
      | .ok s => initObj ctx o = (none, .list s)) ∧
    ((∃ s, (initObj ctx o).2 = .list s ∧ (tag s = (.vb, 0) ∨ tag s = (.skip, skippingGapSize) ∨ tag s = (.bitmap, 0))) ∨
      (initObj ctx o).2 = .newBitmap) := by
  unfold resolve at ho
  unfold openPList
  dsimp only
  by_cases h1 : ctx.listSize ≤ skippingGapSize + 1
  · rw [if_pos h1] at ho
    simp only [h1, if_true]
    obtain ⟨s, rfl, ht⟩ := ho
    cases s with
    | skip s => simp [tag] at ht
    | bitmap s => simp [tag] at ht
    | vb s =>
      unfold initObj
      cases VBList.init ctx with
      | error e => exact ⟨rfl, .inl ⟨_, rfl, .inl rfl⟩⟩
      | ok s' => exact ⟨rfl, .inl ⟨_, rfl, .inl rfl⟩⟩
  · rw [if_neg h1] at ho
    simp only [h1, if_false]
    by_cases h2 : ctx.listSize ≤ maxSkippingLen
    · rw [if_pos h2] at ho
      simp only [h2, if_true]
      obtain ⟨s, rfl, ht⟩ := ho
      cases s with
      | vb s => simp [tag] at ht
      | bitmap s => simp [tag] at ht
      | skip s =>
        simp only [tag, Prod.mk.injEq, true_and] at ht
        have e : SkipList.init (pooledSkip stale) ctx = SkipList.init s ctx := skip_init_stale _ _ ht.symm ctx
        have eg : ∀ s', SkipList.init s ctx = .ok s' → s'.skippingGap = skippingGapSize := by
          intro s' h
          unfold SkipList.init at h
          have := skip_readSkipping_gap { s with input := ctx.reader, size := ctx.listSize, index := 0, currentSkipValue := 0, nextSkipPosition := 0 }
          split at h
          · cases h
          · rename_i hr
            rw [hr] at this
            cases h
            exact this.trans ht
        rw [e]
        unfold initObj
        dsimp only
        cases hi : SkipList.init s ctx with
        | error e => exact ⟨rfl, .inl ⟨_, rfl, .inr (.inl (by simp [tag, ht]))⟩⟩
        | ok s' => exact ⟨rfl, .inl ⟨_, rfl, .inr (.inl (by simp [tag, eg s' hi]))⟩⟩
    · rw [if_neg h2] at ho
      simp only [h2, if_false]
      rcases ho with ⟨s, rfl, ht⟩ | rfl
      · cases s with
        | vb s => simp [tag] at ht
        | skip s => simp [tag] at ht
        | bitmap s =>
          unfold initObj
          dsimp only
          cases BitmapList.init ρ ctx with
          | error e => exact ⟨rfl, .inl ⟨_, rfl, .inr (.inr rfl)⟩⟩
          | ok s' => exact ⟨rfl, .inl ⟨_, rfl, .inr (.inr rfl)⟩⟩
      · unfold initObj
        dsimp only
        cases BitmapList.init ρ ctx with
        | error e => exact ⟨rfl, .inr rfl⟩
        | ok s' => exact ⟨rfl, .inl ⟨_, rfl, .inr (.inr rfl)⟩⟩

theorem hOpenAll_spec {docs : BytesInput} {t : Table} (stale : Nat → SkipList) {xs : List String} : ∀ {own : Own ρ},
    wp okObj (hOpenAll docs t xs) own fun res own' =>
      (match openAll ρ docs t stale xs with
        | .error e => res.2 = some e
        | .ok ss => res.2 = none ∧ Lists own' res.1 ss) ∧
      res.1.Nodup ∧ (∀ r ∈ res.1, own r = none ∧ Releasable own' r) ∧ ∀ r, own r ≠ none → own' r = own r := by
  induction xs with
  | nil => intro own; exact ⟨⟨rfl, .nil⟩, List.nodup_nil, by simp, fun _ _ => rfl⟩
  | cons x xs ih =>
    intro own
    unfold hOpenAll openAll
    cases hg : t.get docs x with
    | error e => exact ⟨rfl, List.nodup_nil, by simp, fun _ _ => rfl⟩
    | ok c =>
      cases c with
      | none => exact ⟨rfl, List.nodup_nil, by simp, fun _ _ => rfl⟩
      | some ctx =>
        dsimp only
        rw [wp_do]
        intro r v hr hv
        show wp okObj (Prog.bind _ _) _ _
        rw [wp_bind]
        obtain ⟨hi, hrel⟩ := initObj_spec hv (stale xs.length)
        refine ⟨v, by simp, ?_⟩
        rw [Function.update_idem]
        have hkeep : ∀ q, own q ≠ none → Function.update own r (some (initObj ctx v).2) q = own q := by
          intro q hq
          exact Function.update_of_ne (fun e => hq (by rw [e]; exact hr)) _ _
        have hrel1 : Releasable (Function.update own r (some (initObj ctx v).2)) r := by
          rcases hrel with ⟨s, h1, h2⟩ | h1
          · exact .inl ⟨s, by simp [h1], h2⟩
          · exact .inr (by simp [h1])
        cases ho : openPList ρ (stale xs.length) ctx with
        | error e =>
          rw [ho] at hi
          simp only [hi, wp]
          refine ⟨?_, by simp, ?_, hkeep⟩
          · simp only [ho, bind, Except.bind]
          · intro q hq
            rw [List.mem_singleton.1 hq]
            exact ⟨hr, hrel1⟩
        | ok s =>
          rw [ho] at hi
          simp only [hi, wp]
          rw [hi] at hkeep hrel1
          show wp okObj (Prog.bind _ _) _ _
          rw [wp_bind]
          refine wp_mono ih ?_
          rintro ⟨rs, e⟩ own2 ⟨h1, h2, h3, h4⟩
          have hrr : r ∉ rs := fun h => by have := (h3 r h).1; simp at this
          have e2 : own2 r = some (.list s) := by rw [h4 r (by simp)]; simp
          refine ⟨?_, List.nodup_cons.2 ⟨hrr, h2⟩, ?_, ?_⟩
          · simp only [ho, bind, Except.bind]
            cases hx : openAll ρ docs t stale xs with
            | error e' => rw [hx] at h1; exact h1
            | ok ss => rw [hx] at h1; exact ⟨h1.1, .cons e2 h1.2⟩
          · intro q hq
            rcases List.mem_cons.1 hq with rfl | hq
            · refine ⟨hr, ?_⟩
              rcases hrel1 with ⟨s', h5, h6⟩ | h5
              · exact .inl ⟨s', by rw [h4 q (by simp)]; exact h5, h6⟩
              · exact .inr (by rw [h4 q (by simp)]; exact h5)
            · refine ⟨?_, (h3 q hq).2⟩
              have := (h3 q hq).1
              by_cases e : q = r
              · rw [e]; exact hr
              · rwa [Function.update_of_ne e] at this
          · intro q hq
            rw [h4 q (by rw [hkeep q hq]; exact hq)]
            exact hkeep q hq

theorem hRelease_spec {own : Own ρ} {r : Ref} (h : Releasable own r) {Q : Unit → Own ρ → Prop} (hq : Q () (Function.update own r none)) :
    wp okObj (hRelease r) own Q := by
  unfold hRelease
  rcases h with ⟨s, h1, h2⟩ | h1
  · refine ⟨_, h1, ?_⟩
    have e : Function.update own r (some (id (.list s))) = own := by rw [id, ← h1, Function.update_eq_self]
    rw [e]
    cases s with
    | vb s => exact ⟨_, h1, ⟨_, rfl, rfl⟩, hq⟩
    | skip s =>
      refine ⟨_, h1, ⟨_, rfl, ?_⟩, hq⟩
      simpa [tag] using h2
    | bitmap s => exact ⟨_, h1, .inl ⟨_, rfl, rfl⟩, hq⟩
  · refine ⟨_, h1, ?_⟩
    have e : Function.update own r (some (id .newBitmap)) = own := by rw [id, ← h1, Function.update_eq_self]
    rw [e]
    exact ⟨_, h1, .inr rfl, hq⟩

theorem hReleaseAll_spec {rs : List Ref} : ∀ {own : Own ρ}, rs.Nodup → (∀ r ∈ rs, Releasable own r) →
    wp okObj (hReleaseAll rs) own fun _ own' => ∀ r, r ∉ rs → own' r = own r := by
  induction rs with
  | nil => intro own _ _; exact fun _ _ => rfl
  | cons r rs ih =>
    intro own hnd h
    rw [List.nodup_cons] at hnd
    unfold hReleaseAll
    rw [wp_do]
    refine wp_mono (ih hnd.2 fun q hq => h q (by simp [hq])) ?_
    rintro - own1 h1
    refine hRelease_spec ?_ ?_
    · have := h r (by simp)
      unfold Releasable at this ⊢
      rw [h1 r hnd.1]
      exact this
    · intro q hq
      rw [List.mem_cons, not_or] at hq
      rw [Function.update_of_ne hq.1]
      exact h1 q hq.2

theorem hSearch_spec {grow : Nat → Nat} {order : List Nat → List Nat} (ho : ∀ ns, (order ns).Perm (List.range ns.length)) {docs : BytesInput} {t : Table}
    {terms : List String} {T : Int} {k : κ} (stale : Nat → SkipList) {own : Own ρ} :
    wp okObj (hSearch collect grow order docs t terms T k) own fun res own' =>
      res = search ρ (cpMerge collect (permSort order)) docs stale t terms T k ∧ ∀ r, own r ≠ none → own' r = own r := by
  unfold hSearch search
  dsimp only
  split
  · exact ⟨rfl, fun _ _ => rfl⟩
  · rw [wp_do]
    refine wp_mono (hOpenAll_spec stale) ?_
    rintro ⟨rid, e⟩ own1 ⟨h1, h2, h3, h4⟩
    dsimp only at h1 h2 h3
    have fin : ∀ {own2 : Own ρ} (res : κ × Option Err), Changes own1 own2 rid → (∀ r ∈ rid, own1 r = some .newBitmap → own2 r = some .newBitmap) →
        wp okObj (do hReleaseAll rid; return res) own2 fun res' own' => res' = res ∧ ∀ r, own r ≠ none → own' r = own r := by
      intro own2 res hc hnew
      rw [wp_do]
      refine wp_mono (hReleaseAll_spec h2 ?_) ?_
      · intro r hr
        rcases (h3 r hr).2 with ⟨s, h5, h6⟩ | h5
        · obtain ⟨s', h7, h8⟩ := hc.list r s h5
          exact .inl ⟨s', h7, by rw [h8]; exact h6⟩
        · exact .inr (hnew r hr h5)
      · rintro - own3 h5
        refine ⟨rfl, fun r hr => ?_⟩
        have hn : r ∉ rid := fun h => hr (h3 r h).1
        rw [h5 r hn, hc.keep r (by rw [h4 r hr]; exact hr) hn]
        exact h4 r hr
    cases hx : openAll ρ docs t stale (filterTerms t T terms []) with
    | error e' =>
      rw [hx] at h1
      subst h1
      exact fin _ (Changes.refl _ _) (fun _ _ h => h)
    | ok ss =>
      rw [hx] at h1
      obtain ⟨rfl, hl⟩ := h1
      dsimp only
      rw [wp_do]
      refine wp_mono (hMerge_spec ho hl h2) ?_
      rintro res own2 ⟨rfl, h5⟩
      refine fin _ h5 (fun r hr h => ?_)
      obtain ⟨x, hx⟩ := hl.mem hr
      rw [hx] at h
      cases h

end

end Verif.Pool
