import Verif.Model.Merger
import Verif.Proofs.Iterator
import Mathlib.Data.List.Perm.Basic
import Mathlib.Data.List.Forall2

namespace Verif
open Spec

/-! ### Candidates -/

namespace MergeCandidate

theorem new_eq {p o : Nat} (hp : p < 2 ^ 32) (ho : o < 2 ^ 32) : new p o = p * 2 ^ 32 + o := by
  unfold new
  rw [Nat.and_two_pow_sub_one_eq_mod, Nat.mod_eq_of_lt ho, Nat.shiftLeft_eq, Nat.mul_comm,
    ← Nat.two_pow_add_eq_or_of_lt ho]
  change @Eq Nat ((2 ^ 32 * p + o) % 2 ^ 64) (2 ^ 32 * p + o)
  omega

theorem position_new {p o : Nat} (hp : p < 2 ^ 32) (ho : o < 2 ^ 32) : position (new p o) = p := by
  rw [new_eq hp ho, position, Nat.shiftRight_eq_div_pow]; omega

theorem overlap_new {p o : Nat} (hp : p < 2 ^ 32) (ho : o < 2 ^ 32) : overlap (new p o) = o := by
  rw [new_eq hp ho, overlap]; omega

theorem increment_new {p o : Nat} (hp : p < 2 ^ 32) (ho : o < maxOverlap) :
    increment (new p o) = .ok (new p (o + 1)) := by
  have h1 : maxOverlap = 65535 := rfl
  have ho2 : o < 2 ^ 32 := by omega
  unfold increment
  rw [overlap_new hp ho2, if_neg (by omega), new_eq hp ho2, new_eq hp (by omega)]
  congr 1
  change @Eq Nat ((p * 2 ^ 32 + o + 1) % 2 ^ 64) (p * 2 ^ 32 + (o + 1))
  omega

end MergeCandidate

open MergeCandidate

/-- Packed form of a (position, overlap) pair. -/
def pk (x : Nat × Nat) : MergeCandidate := MergeCandidate.new x.1 x.2

/-- `C` lists, in strictly ascending order, the positions with positive count `f`, and their count. -/
structure Cnt (C : List (Nat × Nat)) (f : Nat → Nat) : Prop where
  asc : C.Pairwise (fun a b => a.1 < b.1)
  mem : ∀ p c, (p, c) ∈ C ↔ c = f p ∧ 0 < c

/-- All candidates of `C` are representable; those with a position in `l` can still be incremented. -/
def Room (C : List (Nat × Nat)) (l : List Nat) : Prop :=
  ∀ x ∈ C, x.1 < 2 ^ 32 ∧ x.2 + (if x.1 ∈ l then 1 else 0) ≤ maxOverlap

/-- All candidates of `C` are representable. -/
def Fits (C : List (Nat × Nat)) : Prop := ∀ x ∈ C, x.1 < 2 ^ 32 ∧ x.2 ≤ maxOverlap

theorem Room.fits {C : List (Nat × Nat)} {l : List Nat} (h : Room C l) : Fits C := fun x hx => by
  have := h x hx; exact ⟨this.1, by omega⟩

theorem Room.tail {C : List (Nat × Nat)} {x : Nat × Nat} {l : List Nat} (h : Room (x :: C) l) : Room C l :=
  fun y hy => h y (List.mem_cons_of_mem _ hy)

theorem Room.drop {C : List (Nat × Nat)} {x : Nat} {l : List Nat} (h : Room C (x :: l)) : Room C l := fun y hy => by
  have := h y hy
  refine ⟨this.1, ?_⟩
  have h2 := this.2
  by_cases hm : y.1 ∈ l
  · rw [if_pos hm]; rwa [if_pos (List.mem_cons_of_mem _ hm)] at h2
  · rw [if_neg hm]; omega

/-! ### One list merged into the candidates (specification) -/

/-- Merge a sorted list into sorted candidates. -/
def mergeOne : List (Nat × Nat) → List Nat → List (Nat × Nat)
  | [], l => l.map (fun x => (x, 1))
  | C, [] => C
  | (p, c) :: C, x :: xs =>
    if x < p then (x, 1) :: mergeOne ((p, c) :: C) xs
    else if p < x then (p, c) :: mergeOne C (x :: xs)
    else (p, c + 1) :: mergeOne C xs
termination_by C l => C.length + l.length

theorem mergeOne_nil_right (C : List (Nat × Nat)) : mergeOne C [] = C := by
  cases C <;> simp [mergeOne]

theorem mergeOne_keys {C : List (Nat × Nat)} {l : List Nat} {q d : Nat} (h : (q, d) ∈ mergeOne C l) :
    (∃ c, (q, c) ∈ C) ∨ q ∈ l := by
  fun_induction mergeOne C l with
  | case1 l => simp at h; exact .inr h.1
  | case2 C hne => exact .inl ⟨d, h⟩
  | case3 p c C x xs hx ih =>
    rcases List.mem_cons.1 h with h | h
    · simp only [Prod.mk.injEq] at h; exact .inr (by simp [h.1])
    · rcases ih h with ⟨c', h⟩ | h
      · exact .inl ⟨c', h⟩
      · exact .inr (by simp [h])
  | case4 p c C x xs hx hp ih =>
    rcases List.mem_cons.1 h with h | h
    · simp only [Prod.mk.injEq] at h; exact .inl ⟨c, by simp [h.1]⟩
    · rcases ih h with ⟨c', h⟩ | h
      · exact .inl ⟨c', by simp [h]⟩
      · exact .inr h
  | case5 p c C x xs hx hp ih =>
    rcases List.mem_cons.1 h with h | h
    · simp only [Prod.mk.injEq] at h; exact .inl ⟨c, by simp [h.1]⟩
    · rcases ih h with ⟨c', h⟩ | h
      · exact .inl ⟨c', by simp [h]⟩
      · exact .inr (by simp [h])

theorem mergeOne_asc {C : List (Nat × Nat)} {l : List Nat} (hC : C.Pairwise (fun a b => a.1 < b.1))
    (hl : l.Pairwise (· < ·)) : (mergeOne C l).Pairwise (fun a b => a.1 < b.1) := by
  fun_induction mergeOne C l with
  | case1 l => rw [List.pairwise_map]; exact hl
  | case2 C hne => exact hC
  | case3 p c C x xs hx ih =>
    rw [List.pairwise_cons] at hl ⊢
    refine ⟨?_, ih hC hl.2⟩
    rintro ⟨q, d⟩ hq
    rcases mergeOne_keys hq with ⟨c', h⟩ | h
    · rcases List.mem_cons.1 h with h | h
      · simp only [Prod.mk.injEq] at h; simp only; omega
      · have := (List.pairwise_cons.1 hC).1 _ h
        simp only at this ⊢; omega
    · exact hl.1 q h
  | case4 p c C x xs hx hp ih =>
    rw [List.pairwise_cons] at hC ⊢
    refine ⟨?_, ih hC.2 hl⟩
    rintro ⟨q, d⟩ hq
    rcases mergeOne_keys hq with ⟨c', h⟩ | h
    · exact hC.1 (q, c') h
    · rcases List.mem_cons.1 h with h | h
      · simp only; omega
      · have := (List.pairwise_cons.1 hl).1 _ h
        simp only; omega
  | case5 p c C x xs hx hp ih =>
    rw [List.pairwise_cons] at hC hl ⊢
    refine ⟨?_, ih hC.2 hl.2⟩
    rintro ⟨q, d⟩ hq
    rcases mergeOne_keys hq with ⟨c', h⟩ | h
    · exact hC.1 (q, c') h
    · have := hl.1 _ h
      simp only; omega

theorem mergeOne_mem {C : List (Nat × Nat)} {l : List Nat} (hC : C.Pairwise (fun a b => a.1 < b.1))
    (hl : l.Pairwise (· < ·)) (q d : Nat) : (q, d) ∈ mergeOne C l ↔
      ((q, d) ∈ C ∧ q ∉ l) ∨ (q ∈ l ∧ d = 1 ∧ ∀ c, (q, c) ∉ C) ∨
      (q ∈ l ∧ ∃ c, (q, c) ∈ C ∧ d = c + 1) := by
  fun_induction mergeOne C l with
  | case1 l => simp; tauto
  | case2 C hne => simp
  | case3 p c C x xs hx ih =>
    rw [List.mem_cons, ih hC (List.pairwise_cons.1 hl).2]
    have hxs : x ∉ xs := fun h => absurd ((List.pairwise_cons.1 hl).1 x h) (by omega)
    have hxC : ∀ c', (x, c') ∉ (p, c) :: C := by
      intro c' h
      rcases List.mem_cons.1 h with h | h
      · simp only [Prod.mk.injEq] at h; omega
      · have := (List.pairwise_cons.1 hC).1 _ h; simp only at this; omega
    by_cases hq : q = x
    · subst hq
      have h1 : ¬ (q, d) ∈ (p, c) :: C := hxC d
      have h4 : ∀ c', (q, c') ∉ (p, c) :: C := hxC
      simp only [Prod.mk.injEq, true_and, h1, false_and, hxs, List.mem_cons_self,
        or_false, h4, false_or, not_false_eq_true, implies_true, and_true, exists_false]
    · simp only [Prod.mk.injEq, hq, false_and, false_or, List.mem_cons (a := q) (b := x)]
  | case4 p c C x xs hx hp ih =>
    rw [List.mem_cons, ih (List.pairwise_cons.1 hC).2 hl]
    have hpl : p ∉ x :: xs := by
      intro h
      rcases List.mem_cons.1 h with h | h
      · omega
      · have := (List.pairwise_cons.1 hl).1 _ h; omega
    have hpC : ∀ c', (p, c') ∉ C := fun c' h => by
      have := (List.pairwise_cons.1 hC).1 _ h; simp only at this; omega
    by_cases hq : q = p
    · subst hq
      simp only [hpl, false_and, or_false, hpC d, not_false_eq_true, and_true, List.mem_cons (a := (q, d)) (b := (q, c)), or_false]
    · simp only [List.mem_cons (b := (p, c)), Prod.mk.injEq, hq, false_and, false_or]
  | case5 p c C x xs hx hp ih =>
    have hpx : p = x := by omega
    subst hpx
    rw [List.mem_cons, ih (List.pairwise_cons.1 hC).2 (List.pairwise_cons.1 hl).2]
    have hxs : p ∉ xs := fun h => absurd ((List.pairwise_cons.1 hl).1 p h) (by omega)
    have hpC : ∀ c', (p, c') ∉ C := fun c' h => by
      have := (List.pairwise_cons.1 hC).1 _ h; simp only at this; omega
    by_cases hq : q = p
    · subst hq
      simp only [Prod.mk.injEq, true_and, hpC, false_and, hxs, or_false, List.mem_cons_self, not_true_eq_false,
        and_false, false_or, List.mem_cons (b := (q, c)), or_false, forall_eq, and_false, exists_eq_left]
    · simp only [List.mem_cons (b := (p, c)), Prod.mk.injEq, hq, false_and, false_or, List.mem_cons (a := q) (b := p)]

theorem mergeOne_cnt {C : List (Nat × Nat)} {f : Nat → Nat} {l : List Nat} (h : Cnt C f)
    (hl : l.Pairwise (· < ·)) : Cnt (mergeOne C l) (fun p => f p + if p ∈ l then 1 else 0) := by
  refine ⟨mergeOne_asc h.asc hl, fun p c => ?_⟩
  rw [mergeOne_mem h.asc hl]
  by_cases hp : p ∈ l
  · simp only [hp, not_true_eq_false, and_false, true_and, false_or, if_true]
    constructor
    · rintro (⟨rfl, hn⟩ | ⟨c', hc', rfl⟩)
      · have : f p = 0 := by
          by_contra h0
          exact hn (f p) ((h.mem p _).2 ⟨rfl, by omega⟩)
        omega
      · have := (h.mem p c').1 hc'; omega
    · rintro ⟨rfl, -⟩
      by_cases h0 : f p = 0
      · refine .inl ⟨by omega, fun c hc => ?_⟩
        have := (h.mem p c).1 hc; omega
      · exact .inr ⟨f p, (h.mem p _).2 ⟨rfl, by omega⟩, rfl⟩
  · simp [hp, h.mem]

theorem mergeOne_fits {C : List (Nat × Nat)} {l : List Nat} (hC : Room C l)
    (hasc : C.Pairwise (fun a b => a.1 < b.1)) (hs : l.Pairwise (· < ·))
    (hl : ∀ x ∈ l, x < 2 ^ 32) : Fits (mergeOne C l) := by
  rintro ⟨q, d⟩ h
  rcases (mergeOne_mem hasc hs q d).1 h with ⟨h, -⟩ | ⟨h', rfl, -⟩ | ⟨h', c, hc, rfl⟩
  · exact hC.fits _ h
  · exact ⟨hl q h', by show 1 ≤ 65535; omega⟩
  · have := hC _ hc; exact ⟨this.1, by have := this.2; rw [if_pos h'] at this; exact this⟩

/-- Candidates that list the counts `f` have room for a list, if the counts have. -/
theorem Cnt.room {C : List (Nat × Nat)} {f : Nat → Nat} {l : List Nat} (h : Cnt C f) (hC : Fits C)
    (hm : ∀ p, f p + (if p ∈ l then 1 else 0) ≤ maxOverlap) : Room C l := by
  rintro ⟨p, c⟩ hx
  refine ⟨(hC _ hx).1, ?_⟩
  rw [((h.mem p c).1 hx).1]
  exact hm p

/-! ### The model of the inner loop computes `mergeOne` -/

variable {σ κ : Type} [ListIter σ]

theorem advance_rep (S : IterSim σ) {s : σ} {x : Nat} {xs : List Nat} {n : Nat}
    (h : S.Rep s ⟨x :: xs, n⟩) :
    ∃ s', advance s = .ok (xs.head?, s') ∧ (xs ≠ [] → S.Rep s' ⟨xs, n⟩) := by
  unfold advance
  have hn := S.hasNext h
  have hx := S.next h
  cases xs with
  | nil =>
    simp only [Iter.hasNext] at hn
    simp only [hn]
    exact ⟨s, rfl, fun h => absurd rfl h⟩
  | cons y ys =>
    have : ListIter.hasNext s = true := by rw [hn]; simp [Iter.hasNext]
    rw [if_pos this]
    obtain ⟨h1, h2⟩ := hx
    simp only [Iter.next, ofOpt] at h1 h2
    refine ⟨(ListIter.next s).2, ?_, fun _ => h2⟩
    cases hq : ListIter.next s with
    | mk r s' => rw [hq] at h1; simp only at h1; subst h1; rfl

theorem scanLoop_eq (S : IterSim σ) {n : Nat} :
    ∀ {fuel : Nat} {C : List (Nat × Nat)} {l : List Nat} {s : σ},
    C.length + l.length ≤ fuel → Room C l → (∀ x ∈ l, x < 2 ^ 32) → (l ≠ [] → S.Rep s ⟨l, n⟩) →
    scanLoop fuel (C.map pk) l.head? s = .ok ((mergeOne C l).map pk) := by
  intro fuel
  induction fuel with
  | zero =>
    intro C l s hf hC hl hrep
    have h1 : C = [] := List.length_eq_zero_iff.1 (by omega)
    have h2 : l = [] := List.length_eq_zero_iff.1 (by omega)
    subst h1; subst h2; simp [scanLoop, mergeOne]
  | succ k ih =>
    intro C l s hf hC hl hrep
    have hmx : maxOverlap = 65535 := rfl
    match C, l with
    | [], [] => simp [scanLoop, mergeOne]
    | [], x :: xs =>
      obtain ⟨s', e1, e2⟩ := advance_rep S (hrep (by simp))
      have := ih (C := []) (l := xs) (s := s') (by simp at hf ⊢; omega) hC.drop
        (fun y hy => hl y (by simp [hy])) e2
      simp only [List.map_nil] at this
      simp only [List.map_nil, List.head?_cons, scanLoop, e1]
      change (do return _ :: (← scanLoop k [] xs.head? s')) = _
      rw [this]
      simp [mergeOne]; rfl
    | (p, c) :: C, [] =>
      have hC' := hC.tail
      have := ih (C := C) (l := []) (s := s) (by simp at hf ⊢; omega) hC' (by simp) (by simp)
      simp only [List.head?_nil] at this
      simp only [List.map_cons, List.head?_nil, scanLoop, this, mergeOne_nil_right]
      rfl
    | (p, c) :: C, x :: xs =>
      have hC' := hC.tail
      have hp := hC (p, c) (by simp)
      simp only at hp
      have hpos : (pk (p, c)).position = p := position_new hp.1 (by omega)
      obtain ⟨s', e1, e2⟩ := advance_rep S (hrep (by simp))
      have hl' : ∀ y ∈ xs, y < 2 ^ 32 := fun y hy => hl y (by simp [hy])
      simp only [List.map_cons, List.head?_cons, scanLoop, hpos]
      unfold mergeOne
      by_cases h1 : x < p
      · rw [if_pos h1, if_pos h1, e1]
        have := ih (C := (p, c) :: C) (l := xs) (s := s') (by simp at hf ⊢; omega) hC.drop hl' e2
        simp only [List.map_cons] at this
        change (do return _ :: (← scanLoop k (pk (p, c) :: C.map pk) xs.head? s')) = _
        rw [this]; rfl
      · rw [if_neg (show ¬ p > x by omega), if_neg h1]
        by_cases h2 : p < x
        · rw [if_pos h2, if_pos h2]
          have := ih (C := C) (l := x :: xs) (s := s) (by simp at hf ⊢; omega) hC' hl hrep
          simp only [List.head?_cons] at this
          rw [this]; rfl
        · rw [if_neg h2, if_neg h2]
          have hinc : (pk (p, c)).increment = .ok (pk (p, c + 1)) := increment_new hp.1 (by
            have h3 := hp.2
            rw [if_pos (by simp; omega)] at h3
            omega)
          have := ih (C := C) (l := xs) (s := s') (by simp at hf ⊢; omega) hC'.drop hl' e2
          rw [hinc, e1]
          change (do return _ :: (← scanLoop k (C.map pk) xs.head? s')) = _
          rw [this]; rfl

theorem getCurrent_rep (S : IterSim σ) {s : σ} {t : Iter} (h : S.Rep s t) :
    getCurrent s = .ok t.rem.head? := by
  unfold getCurrent
  rw [S.get h]
  unfold Iter.get
  cases t.rem.head? <;> rfl

theorem scanStep_eq (S : IterSim σ) {C : List (Nat × Nat)} {l : List Nat}
    {s : σ} (hC : Room C l) (hl : ∀ x ∈ l, x < 2 ^ 32) (h : S.Rep s (Iter.start l)) :
    scanStep (C.map pk) s = .ok ((mergeOne C l).map pk) := by
  unfold scanStep
  rw [getCurrent_rep S h]
  change scanLoop _ _ _ _ = _
  have hlen : ListIter.len s = l.length := S.len h
  exact scanLoop_eq S (n := l.length) (by simp only [hlen, List.length_map, Iter.start]; omega) hC hl (fun _ => h)

/-- A list the mergers are specified for: strictly ascending `uint32` numbers. -/
def GoodList (l : List Nat) : Prop := l.Pairwise (· < ·) ∧ ∀ x ∈ l, x < 2 ^ 32

/-- Counting the lists containing `p`, added to a start value. -/
theorem occurrences_cons (l : List Nat) (ls : List (List Nat)) (p : Nat) :
    occurrences (l :: ls) p = (if p ∈ l then 1 else 0) + occurrences ls p := by
  unfold occurrences
  by_cases h : p ∈ l <;> simp [h]; omega

theorem occurrences_le (ls : List (List Nat)) (p : Nat) : occurrences ls p ≤ ls.length :=
  List.length_filter_le _ _

theorem occurrences_perm {ls ls' : List (List Nat)} (h : ls.Perm ls') (p : Nat) :
    occurrences ls p = occurrences ls' p := (h.filter _).length_eq

theorem occurrences_append (ls ls' : List (List Nat)) (p : Nat) :
    occurrences (ls ++ ls') p = occurrences ls p + occurrences ls' p := by
  simp [occurrences]

theorem scanLists_eq (S : IterSim σ) : ∀ {rid : List σ} {ls : List (List Nat)} {C : List (Nat × Nat)}
    {f : Nat → Nat}, List.Forall₂ (fun s l => S.Rep s (Iter.start l)) rid ls →
    (∀ l ∈ ls, GoodList l) → Fits C → (∀ p, f p + occurrences ls p ≤ maxOverlap) → Cnt C f →
    ∃ C', scanLists rid (C.map pk) = .ok (C'.map pk) ∧ Cnt C' (fun p => f p + occurrences ls p) ∧ Fits C' := by
  intro rid ls C f h
  induction h generalizing C f with
  | nil =>
    intro _ hC _ hcnt
    exact ⟨C, rfl, by simpa [occurrences] using hcnt, by simpa using hC⟩
  | @cons s l rid ls hr hrest ih =>
    intro hg hC hb hcnt
    have hgl := hg l (by simp)
    have hroom : Room C l := hcnt.room hC (fun p => by have := hb p; rw [occurrences_cons] at this; omega)
    have hstep := scanStep_eq S hroom hgl.2 hr
    obtain ⟨C', e1, e2, e3⟩ := ih (C := mergeOne C l) (f := fun p => f p + if p ∈ l then 1 else 0)
      (fun l' hl' => hg l' (by simp [hl'])) (mergeOne_fits hroom hcnt.asc hgl.1 hgl.2)
      (fun p => by have := hb p; rw [occurrences_cons] at this; omega)
      (mergeOne_cnt hcnt hgl.1)
    refine ⟨C', ?_, ?_, e3⟩
    · simp only [scanLists, hstep]; exact e1
    · have : (fun p => f p + occurrences (l :: ls) p)
          = (fun p => (f p + if p ∈ l then 1 else 0) + occurrences ls p) := by
        funext p; rw [occurrences_cons]; omega
      rw [this]; exact e2

/-! ### Reporting -/

theorem report_eq (collect : κ → MergeCandidate → κ × CollectRes Err) (T : Nat) :
    ∀ (C : List (Nat × Nat)) (k : κ), Fits C →
    report collect T k (C.map pk) = feed collect k ((C.filter (fun x => T ≤ x.2)).map pk)
  | [], k, _ => rfl
  | (p, c) :: C, k, hC => by
    have hmx : maxOverlap = 65535 := rfl
    have hp := hC (p, c) (by simp)
    simp only at hp
    have hov : (pk (p, c)).overlap = c := overlap_new hp.1 (by omega)
    have hC' : Fits C := fun x hx => hC x (by simp [hx])
    have ih := fun k => report_eq collect T C k hC'
    simp only [List.map_cons, report, hov]
    by_cases h : T ≤ c
    · rw [if_pos h, List.filter_cons_of_pos (by simpa using h), List.map_cons, feed]
      split <;> rename_i heq <;> rw [heq]
      · exact ih _
    · rw [if_neg h, List.filter_cons_of_neg (by simpa using h)]
      exact ih k

theorem Cnt.filter_isTOcc {C : List (Nat × Nat)} {ls : List (List Nat)} (h : Cnt C (occurrences ls)) (T : Nat) :
    IsTOcc ls T (C.filter (fun x => T ≤ x.2)) := by
  refine ⟨h.asc.sublist List.filter_sublist, fun p c => ?_⟩
  rw [List.mem_filter, h.mem]
  simp; tauto

theorem scanCountMerge_eq (S : IterSim σ) (collect : κ → MergeCandidate → κ × CollectRes Err)
    {rid : List σ} {ls : List (List Nat)} (T : Nat) (k : κ)
    (h : List.Forall₂ (fun s l => S.Rep s (Iter.start l)) rid ls) (hg : ∀ l ∈ ls, GoodList l)
    (hn : ∀ p, occurrences ls p ≤ maxOverlap) :
    ∃ out, IsTOcc ls T out ∧ scanCountMerge collect rid T k = feed collect k (out.map pk) := by
  obtain ⟨C, e1, e2, e3⟩ := scanLists_eq S (C := []) (f := fun _ => 0) h hg
    (by simp [Fits]) (fun p => by have := hn p; omega) ⟨by simp, by simp⟩
  simp only [Nat.zero_add] at e2
  refine ⟨_, e2.filter_isTOcc T, ?_⟩
  unfold scanCountMerge
  simp only [List.map_nil] at e1
  rw [e1]
  exact report_eq collect T C k e3

/-- The answer is unique. -/
theorem isTOcc_unique {ls : List (List Nat)} {T : Nat} {o1 o2 : List (Nat × Nat)} (h1 : IsTOcc ls T o1)
    (h2 : IsTOcc ls T o2) : o1 = o2 := by
  apply List.Perm.eq_of_pairwise (le := fun a b => a.1 < b.1) (fun a b _ _ h h' => by omega)
    h1.ascending h2.ascending
  apply (List.perm_ext_iff_of_nodup ?_ ?_).2
  · rintro ⟨p, c⟩; rw [h1.exact, h2.exact]
  · exact h1.ascending.imp (fun h he => by rw [he] at h; omega)
  · exact h2.ascending.imp (fun h he => by rw [he] at h; omega)

theorem isTOcc_perm {ls ls' : List (List Nat)} {T : Nat} {o : List (Nat × Nat)} (hp : ls.Perm ls')
    (h : IsTOcc ls T o) : IsTOcc ls' T o :=
  ⟨h.ascending, fun p c => by rw [h.exact, occurrences_perm hp]⟩

theorem isTOcc_empty {ls : List (List Nat)} {T : Nat} (h : ls.length < T ∨ ls = []) : IsTOcc ls T [] := by
  refine ⟨by simp, fun p c => ?_⟩
  constructor
  · simp
  · rintro ⟨rfl, h1, h2⟩
    have := occurrences_le ls p
    rcases h with h | rfl
    · omega
    · simp [occurrences] at h2

end Verif
