import Verif.Proofs.CPMerge
import Verif.Proofs.DivideSkip
/- What happens when the counter of a candidate overflows: ScanCount and CPMerge panic. -/
namespace Verif
open Spec MergeCandidate
variable {σ κ : Type} [ListIter σ]

theorem increment_full {p : Nat} (hp : p < 2 ^ 32) : increment (new p maxOverlap) = .error .panicOverflow := by
  have h1 : maxOverlap = 65535 := rfl
  unfold increment
  rw [overlap_new hp (by omega), if_pos rfl]

/-- Some candidate with a position in `l` is full. -/
def Full (C : List (Nat × Nat)) (l : List Nat) : Prop := ∃ x ∈ C, x.1 ∈ l ∧ x.2 = maxOverlap

theorem room_or_full {C : List (Nat × Nat)} (hC : Fits C) (l : List Nat) : Room C l ∨ Full C l := by
  by_cases h : Full C l
  · exact .inr h
  · refine .inl fun x hx => ⟨(hC x hx).1, ?_⟩
    have h1 := (hC x hx).2
    by_cases hm : x.1 ∈ l
    · rw [if_pos hm]
      have : x.2 ≠ maxOverlap := fun e => h ⟨x, hx, hm, e⟩
      omega
    · rw [if_neg hm]; omega

theorem scanLoop_full (S : IterSim σ) {n : Nat} :
    ∀ {fuel : Nat} {C : List (Nat × Nat)} {l : List Nat} {s : σ},
    C.length + l.length ≤ fuel → Fits C → C.Pairwise (fun a b => a.1 < b.1) → l.Pairwise (· < ·) → Full C l →
    (l ≠ [] → S.Rep s ⟨l, n⟩) →
    scanLoop fuel (C.map pk) l.head? s = .error .panicOverflow := by
  intro fuel
  induction fuel with
  | zero =>
    intro C l s hf _ _ _ hfull
    have h1 : C = [] := List.length_eq_zero_iff.1 (by omega)
    subst h1
    obtain ⟨x, hx, _⟩ := hfull
    simp at hx
  | succ k ih =>
    intro C l s hf hC hasc hl hfull hrep
    have hmx : maxOverlap = 65535 := rfl
    match C, l with
    | [], _ => obtain ⟨x, hx, _⟩ := hfull; simp at hx
    | (p, c) :: C, [] => obtain ⟨x, hx, h, _⟩ := hfull; simp at h
    | (p, c) :: C, x :: xs =>
      have hC' : Fits C := fun x hx => hC x (by simp [hx])
      have hp := hC (p, c) (by simp)
      simp only at hp
      have hpos : (pk (p, c)).position = p := position_new hp.1 (by omega)
      have hasc' := List.pairwise_cons.1 hasc
      have hl' := List.pairwise_cons.1 hl
      obtain ⟨s', e1, e2⟩ := advance_rep S (hrep (by simp))
      simp only [List.map_cons, List.head?_cons, scanLoop, hpos]
      by_cases h1 : x < p
      · rw [if_pos h1, e1]
        have hfull' : Full ((p, c) :: C) xs := by
          obtain ⟨y, hy, h, hm⟩ := hfull
          refine ⟨y, hy, ?_, hm⟩
          rcases List.mem_cons.1 h with h | h
          · rcases List.mem_cons.1 hy with rfl | hy
            · simp only at h; omega
            · have := hasc'.1 y hy; simp only at this; omega
          · exact h
        have := ih (C := (p, c) :: C) (l := xs) (s := s') (by simp at hf ⊢; omega) hC hasc hl'.2 hfull' e2
        simp only [List.map_cons] at this
        change (do return _ :: (← scanLoop k (pk (p, c) :: C.map pk) xs.head? s')) = _
        rw [this]; rfl
      · rw [if_neg (show ¬ p > x by omega)]
        by_cases h2 : p < x
        · rw [if_pos h2]
          have hfull' : Full C (x :: xs) := by
            obtain ⟨y, hy, h, hm⟩ := hfull
            rcases List.mem_cons.1 hy with rfl | hy
            · rcases List.mem_cons.1 h with h | h
              · simp only at h; omega
              · have := hl'.1 _ h; simp only at this; omega
            · exact ⟨y, hy, h, hm⟩
          have := ih (C := C) (l := x :: xs) (s := s) (by simp at hf ⊢; omega) hC' hasc'.2 hl hfull' hrep
          simp only [List.head?_cons] at this
          rw [this]; rfl
        · rw [if_neg h2]
          by_cases hc : c = maxOverlap
          · rw [hc, show (pk (p, maxOverlap)).increment = .error .panicOverflow from increment_full hp.1]; rfl
          · have hinc : (pk (p, c)).increment = .ok (pk (p, c + 1)) := increment_new hp.1 (by omega)
            have hfull' : Full C xs := by
              obtain ⟨y, hy, h, hm⟩ := hfull
              rcases List.mem_cons.1 hy with rfl | hy
              · exact absurd hm hc
              · refine ⟨y, hy, ?_, hm⟩
                rcases List.mem_cons.1 h with h | h
                · have := hasc'.1 y hy; simp only at this; omega
                · exact h
            have := ih (C := C) (l := xs) (s := s') (by simp at hf ⊢; omega) hC' hasc'.2 hl'.2 hfull' e2
            rw [hinc, e1]
            change (do return _ :: (← scanLoop k (C.map pk) xs.head? s')) = _
            rw [this]; rfl

theorem scanStep_full (S : IterSim σ) {C : List (Nat × Nat)} {l : List Nat} {s : σ} (hC : Fits C)
    (hasc : C.Pairwise (fun a b => a.1 < b.1)) (hl : l.Pairwise (· < ·)) (hfull : Full C l) (h : S.Rep s (Iter.start l)) :
    scanStep (C.map pk) s = .error .panicOverflow := by
  unfold scanStep
  rw [getCurrent_rep S h]
  change scanLoop _ _ _ _ = _
  have hlen : ListIter.len s = l.length := S.len h
  exact scanLoop_full S (n := l.length) (by simp only [hlen, List.length_map, Iter.start]; omega) hC hasc hl hfull (fun _ => h)

/-- The counting phase either counts, or panics because of a position with a count above the limit. -/
theorem scanLists_cases (S : IterSim σ) : ∀ {rid : List σ} {ls : List (List Nat)} {C : List (Nat × Nat)}
    {f : Nat → Nat}, List.Forall₂ (fun s l => S.Rep s (Iter.start l)) rid ls →
    (∀ l ∈ ls, GoodList l) → Fits C → Cnt C f →
    (∃ C', scanLists rid (C.map pk) = .ok (C'.map pk) ∧ Cnt C' (fun p => f p + occurrences ls p) ∧ Fits C') ∨
    (scanLists rid (C.map pk) = .error .panicOverflow ∧ ∃ p, maxOverlap < f p + occurrences ls p) := by
  intro rid ls C f h
  induction h generalizing C f with
  | nil =>
    intro _ hC hcnt
    exact .inl ⟨C, rfl, by simpa [occurrences] using hcnt, by simpa using hC⟩
  | @cons s l rid ls hr hrest ih =>
    intro hg hC hcnt
    have hgl := hg l (by simp)
    have hfun : (fun p => f p + occurrences (l :: ls) p)
        = (fun p => (f p + if p ∈ l then 1 else 0) + occurrences ls p) := by
      funext p; rw [occurrences_cons]; omega
    rcases room_or_full hC l with hroom | hfull
    · have hstep := scanStep_eq S hroom hgl.2 hr
      rcases ih (C := mergeOne C l) (f := fun p => f p + if p ∈ l then 1 else 0)
        (fun l' hl' => hg l' (by simp [hl'])) (mergeOne_fits hroom hcnt.asc hgl.1 hgl.2)
        (mergeOne_cnt hcnt hgl.1) with ⟨C', e1, e2, e3⟩ | ⟨e1, p, hp⟩
      · refine .inl ⟨C', ?_, ?_, e3⟩
        · simp only [scanLists, hstep]; exact e1
        · rw [hfun]; exact e2
      · refine .inr ⟨?_, p, by rw [occurrences_cons]; omega⟩
        simp only [scanLists, hstep]; exact e1
    · right
      refine ⟨by simp only [scanLists, scanStep_full S hC hcnt.asc hgl.1 hfull hr]; rfl, ?_⟩
      obtain ⟨⟨p, c⟩, hx, hm, hc⟩ := hfull
      have := ((hcnt.mem p c).1 hx).1
      simp only at hm hc
      refine ⟨p, ?_⟩
      rw [occurrences_cons, if_pos hm]
      omega

/-- ScanCount's algorithm panics if a position is in more lists than a candidate can count. -/
theorem scanCountMerge_overflow (S : IterSim σ) (collect : κ → MergeCandidate → κ × CollectRes Err)
    {rid : List σ} {ls : List (List Nat)} (T : Nat) (k : κ)
    (h : List.Forall₂ (fun s l => S.Rep s (Iter.start l)) rid ls) (hg : ∀ l ∈ ls, GoodList l) {p : Nat}
    (hp : maxOverlap < occurrences ls p) : scanCountMerge collect rid T k = (k, some .panicOverflow) := by
  unfold scanCountMerge
  rcases scanLists_cases S (C := []) (f := fun _ => 0) h hg (by simp [Fits]) ⟨by simp, by simp⟩ with ⟨C', e1, e2, e3⟩ | ⟨e1, _⟩
  · exfalso
    have hm := (e2.mem p (occurrences ls p)).2 ⟨by simp, by omega⟩
    have := (e3 _ hm).2
    simp only at this
    omega
  · simp only [List.map_nil] at e1
    rw [e1]

theorem bumpIfHit_full {p : Nat} {o : Option Nat} (hp : p < 2 ^ 32) (h : o = some p) :
    bumpIfHit (pk (p, maxOverlap)) p (ofOpt o) = .error .panicOverflow := by
  subst h
  simp only [ofOpt, bumpIfHit, if_true]
  exact increment_full hp

theorem probeLoop_full (S : IterSim σ) {T left : Nat} {l : List Nat} :
    ∀ {C : List (Nat × Nat)} {s : σ} {b : Nat}, Alive S s l b → C.Pairwise (fun a b => a.1 < b.1) →
    (∀ x ∈ C, b ≤ x.1) → Fits C → Full C l →
    probeLoop T left (C.map pk) s = .error .panicOverflow
  | [], s, b, _, _, _, _, hf => by obtain ⟨x, hx, _⟩ := hf; simp at hx
  | (p, c) :: C, s, b, ha, hasc, hge, hC, hf => by
    have hmx : maxOverlap = 65535 := rfl
    have hp := hC (p, c) (by simp)
    simp only at hp
    have hpos : (pk (p, c)).position = p := position_new hp.1 (by omega)
    have hbp : b ≤ p := hge (p, c) (by simp)
    obtain ⟨o, s', e1, e2, e3⟩ := lowerBound_alive ha hbp
    have hasc' := List.pairwise_cons.1 hasc
    simp only [List.map_cons, probeLoop, hpos, e1]
    by_cases hfull : p ∈ l ∧ c = maxOverlap
    · rw [hfull.2, bumpIfHit_full hp.1 (e3.2 hfull.1)]; rfl
    · have hf' : Full C l := by
        obtain ⟨y, hy, h1, h2⟩ := hf
        rcases List.mem_cons.1 hy with rfl | hy
        · exact absurd ⟨h1, h2⟩ hfull
        · exact ⟨y, hy, h1, h2⟩
      have ih := probeLoop_full S (T := T) (left := left) e2 hasc'.2
        (fun x hx => by have := hasc'.1 x hx; simp only at this; omega) (fun x hx => hC x (by simp [hx])) hf'
      have hroom : c + (if p ∈ l then 1 else 0) ≤ maxOverlap := by
        by_cases hm : p ∈ l
        · rw [if_pos hm]
          have : c ≠ maxOverlap := fun e => hfull ⟨hm, e⟩
          omega
        · rw [if_neg hm]; omega
      rw [bumpIfHit_eq (c := c) hp.1 hroom e3, ih]
      rfl

/-- The probing phase either counts, or panics. -/
theorem probeLists_cases (S : IterSim σ) {T : Nat} : ∀ {rid : List σ} {ls : List (List Nat)}
    {C : List (Nat × Nat)} {f : Nat → Nat},
    List.Forall₂ (fun s l => S.Rep s (Iter.start l)) rid ls →
    (∀ l ∈ ls, GoodList l) → Fits C → ls.length < T → CntT C f T ls.length →
    (∃ C', probeLists T rid (C.map pk) = .ok (C'.map pk) ∧
      CntT C' (fun p => f p + occurrences ls p) T 0 ∧ Fits C') ∨
    probeLists T rid (C.map pk) = .error .panicOverflow := by
  intro rid ls C f h
  induction h generalizing C f with
  | nil =>
    intro _ hC _ hcnt
    exact .inl ⟨C, rfl, by simpa [occurrences] using hcnt, by simpa using hC⟩
  | @cons s l rid ls hr hrest ih =>
    intro hg hC hT hcnt
    have hgl := hg l (by simp)
    simp only [List.length_cons] at hT hcnt
    by_cases he : C = []
    · subst he
      refine .inl ⟨[], by simp [probeLists], ⟨by simp, fun p c => ?_⟩, by simp [Fits]⟩
      constructor
      · simp
      · rintro ⟨rfl, h0, ht⟩
        exfalso
        have hocc := occurrences_le (l :: ls) p
        simp only [List.length_cons] at hocc
        have := (hcnt.mem p (f p)).2
        simp at this
        rcases Nat.eq_zero_or_pos (f p) with hz | hz
        · omega
        · have := this hz; omega
    · have hlen : rid.length = ls.length := hrest.length_eq
      have hne : (C.map pk).isEmpty = false := by simp [he]
      rcases room_or_full hC l with hroom | hfull
      · have hstep := probeLoop_eq S (T := T) (left := ls.length) (C := C) (b := 0)
          (alive_start S hr hgl.1) hcnt.asc (fun _ _ => Nat.zero_le _) hroom
        rcases ih (C := probeOne T ls.length C l)
          (f := fun p => f p + if p ∈ l then 1 else 0)
          (fun l' hl' => hg l' (by simp [hl'])) (probeOne_fits hroom) (by omega)
          (probeOne_cntT hcnt hT) with ⟨C', e1, e2, e3⟩ | e1
        · refine .inl ⟨C', ?_, ?_, e3⟩
          · simp only [probeLists, hne, hlen, hstep]
            exact e1
          · have : (fun p => f p + occurrences (l :: ls) p)
                = (fun p => (f p + if p ∈ l then 1 else 0) + occurrences ls p) := by
              funext p; rw [occurrences_cons]; omega
            rw [this]; exact e2
        · right
          simp only [probeLists, hne, hlen, hstep]
          exact e1
      · right
        have hstep := probeLoop_full S (T := T) (left := ls.length) (C := C) (b := 0)
          (alive_start S hr hgl.1) hcnt.asc (fun _ _ => Nat.zero_le _) hC hfull
        simp only [probeLists, hne, hlen, hstep]
        rfl

/-- CPMerge's algorithm panics if an answer is in more lists than a candidate can count. -/
theorem cpMergeMerge_overflow (S : IterSim σ) (collect : κ → MergeCandidate → κ × CollectRes Err)
    {sort : List σ → List σ} (hs : Reorders sort)
    {rid : List σ} {ls : List (List Nat)} (T : Nat) (k : κ)
    (h : List.Forall₂ (fun s l => S.Rep s (Iter.start l)) rid ls) (hg : ∀ l ∈ ls, GoodList l)
    (hT : 1 ≤ T) (hTn : T ≤ ls.length) {p : Nat} (hp : maxOverlap < occurrences ls p) (hpT : T ≤ occurrences ls p) :
    cpMergeMerge collect sort rid T k = (k, some .panicOverflow) := by
  obtain ⟨ls', h', hperm⟩ := forall₂_sort hs h
  have hg' : ∀ l ∈ ls', GoodList l := fun l hl => hg l (hperm.subset hl)
  have hlen : (sort rid).length = ls'.length := h'.length_eq
  have hlen' : ls'.length = ls.length := hperm.length_eq
  obtain ⟨q, hq⟩ : ∃ q, q = (sort rid).length + 1 - T := ⟨_, rfl⟩
  have hql : q ≤ ls'.length := by omega
  have hsum : ∀ p, occurrences (ls'.take q) p + occurrences (ls'.drop q) p = occurrences ls p := fun p => by
    rw [← occurrences_append, List.take_append_drop, occurrences_perm hperm]
  unfold cpMergeMerge
  simp only [← hq]
  rw [if_neg (by omega)]
  rcases scanLists_cases S (C := []) (f := fun _ => 0)
    (List.forall₂_take q h') (fun l hl => hg' l (List.mem_of_mem_take hl))
    (by simp [Fits]) ⟨by simp, by simp⟩ with ⟨C, e1, e2, e3⟩ | ⟨e1, _⟩
  · simp only [Nat.zero_add, List.map_nil] at e1 e2
    have hdrop : (ls'.drop q).length = T - 1 := by simp; omega
    rcases probeLists_cases S (T := T) (C := C) (f := occurrences (ls'.take q))
      (List.forall₂_drop q h') (fun l hl => hg' l (List.mem_of_mem_drop hl)) e3 (by omega)
      ⟨e2.asc, fun p c => by rw [e2.mem]; constructor <;> intro h <;> omega⟩ with ⟨C', f1, f2, f3⟩ | f1
    · exfalso
      have hm := (f2.mem p (occurrences ls p)).2 ⟨(hsum p).symm, by omega, by omega⟩
      have := (f3 _ hm).2
      simp only at this
      omega
    · rw [e1]
      simp only
      rw [f1]
  · simp only [List.map_nil] at e1
    rw [e1]

end Verif
