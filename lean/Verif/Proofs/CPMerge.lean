import Verif.Proofs.Merger

namespace Verif
open Spec MergeCandidate
variable {σ κ : Type} [ListIter σ]

/-- The iterator still shows all elements of `l` that are at least `b`. -/
def Alive (S : IterSim σ) (s : σ) (l : List Nat) (b : Nat) : Prop :=
  ∃ rem n, S.Rep s ⟨rem, n⟩ ∧ rem.Pairwise (· < ·) ∧ ∀ q, b ≤ q → (q ∈ rem ↔ q ∈ l)

theorem alive_start (S : IterSim σ) {s : σ} {l : List Nat} (h : S.Rep s (Iter.start l))
    (hl : l.Pairwise (· < ·)) : Alive S s l 0 := ⟨l, l.length, h, hl, fun _ _ => Iff.rfl⟩

theorem Alive.mono {S : IterSim σ} {s : σ} {l : List Nat} {b b' : Nat} (h : Alive S s l b) (hb : b ≤ b') :
    Alive S s l b' := by
  obtain ⟨rem, n, h1, h2, h3⟩ := h
  exact ⟨rem, n, h1, h2, fun q hq => h3 q (by omega)⟩

theorem mem_dropWhile_lt {l : List Nat} (h : l.Pairwise (· < ·)) {b q : Nat} (hq : b ≤ q) :
    q ∈ l.dropWhile (· < b) ↔ q ∈ l := by
  induction l with
  | nil => simp
  | cons x xs ih =>
    by_cases hx : x < b
    · rw [List.dropWhile_cons_of_pos (by simpa using hx), ih (List.pairwise_cons.1 h).2, List.mem_cons]
      constructor
      · exact .inr
      · rintro (rfl | h)
        · omega
        · exact h
    · rw [List.dropWhile_cons_of_neg (by simpa using hx)]

theorem head_dropWhile_lt {l : List Nat} (h : l.Pairwise (· < ·)) {b : Nat} :
    (l.dropWhile (· < b)).head? = some b ↔ b ∈ l := by
  rw [← mem_dropWhile_lt h (Nat.le_refl b)]
  constructor
  · exact fun h => List.mem_of_mem_head? h
  · intro hm
    have hp : (l.dropWhile (· < b)).Pairwise (· < ·) := h.sublist (List.dropWhile_sublist _)
    have hge : ∀ y, (l.dropWhile (· < b)).head? = some y → b ≤ y := by
      intro y hy
      have := List.head?_dropWhile_not (fun x => decide (x < b)) l
      rw [hy] at this
      simpa using this
    cases hc : l.dropWhile (· < b) with
    | nil => rw [hc] at hm; simp at hm
    | cons y ys =>
      rw [hc] at hm hp
      have hy := hge y (by rw [hc]; rfl)
      rcases List.mem_cons.1 hm with rfl | hm
      · rfl
      · have := (List.pairwise_cons.1 hp).1 b hm; omega

theorem lowerBound_alive {S : IterSim σ} {s : σ} {l : List Nat} {b p : Nat} (h : Alive S s l b)
    (hb : b ≤ p) : ∃ o s', ListIter.lowerBound s p = (ofOpt o, s') ∧ Alive S s' l p ∧
      (o = some p ↔ p ∈ l) := by
  obtain ⟨rem, n, h1, h2, h3⟩ := h
  obtain ⟨e1, e2⟩ := S.lowerBound p h1
  refine ⟨_, _, Prod.ext e1 rfl, ⟨_, _, e2, h2.sublist (List.dropWhile_sublist _), ?_⟩, ?_⟩
  · intro q hq
    rw [← h3 q (by omega)]
    exact mem_dropWhile_lt h2 hq
  · rw [← h3 p hb]
    exact head_dropWhile_lt h2

/-! ### probing -/

theorem bumpIfHit_eq {p c : Nat} {l : List Nat} {o : Option Nat} (hp : p < 2 ^ 32)
    (hc : c + (if p ∈ l then 1 else 0) ≤ maxOverlap) (h : o = some p ↔ p ∈ l) :
    bumpIfHit (pk (p, c)) p (ofOpt o) = .ok (pk (p, c + if p ∈ l then 1 else 0)) := by
  have hinc : p ∈ l → (pk (p, c)).increment = .ok (pk (p, c + 1)) := fun hm => increment_new hp (by
    rw [if_pos hm] at hc; omega)
  cases o with
  | none =>
    have : p ∉ l := fun h' => by simpa using h.2 h'
    simp [ofOpt, this, bumpIfHit]
  | some v =>
    by_cases hv : v = p
    · subst hv
      have : v ∈ l := h.1 rfl
      simp [ofOpt, this, hinc this, bumpIfHit]
    · have : p ∉ l := fun h' => hv (by simpa using h.2 h')
      simp [ofOpt, this, hv, bumpIfHit]

/-- What probing one list does to the candidates. -/
def probeOne (T left : Nat) (C : List (Nat × Nat)) (l : List Nat) : List (Nat × Nat) :=
  (C.map (fun x => (x.1, x.2 + if x.1 ∈ l then 1 else 0))).filter (fun x => T ≤ x.2 + left)

theorem probeLoop_eq (S : IterSim σ) {T left : Nat} {l : List Nat} :
    ∀ {C : List (Nat × Nat)} {s : σ} {b : Nat}, Alive S s l b → C.Pairwise (fun a b => a.1 < b.1) →
    (∀ x ∈ C, b ≤ x.1) → Room C l →
    probeLoop T left (C.map pk) s = .ok ((probeOne T left C l).map pk)
  | [], s, b, _, _, _, _ => rfl
  | (p, c) :: C, s, b, ha, hasc, hge, hC => by
    have hmx : maxOverlap = 65535 := rfl
    have hp := hC (p, c) (by simp)
    simp only at hp
    have hpos : (pk (p, c)).position = p := position_new hp.1 (by omega)
    have hbp : b ≤ p := hge (p, c) (by simp)
    obtain ⟨o, s', e1, e2, e3⟩ := lowerBound_alive ha hbp
    have hasc' := List.pairwise_cons.1 hasc
    have ih := probeLoop_eq S (T := T) (left := left) e2 hasc'.2
      (fun x hx => by have := hasc'.1 x hx; simp only at this; omega) (fun x hx => hC x (by simp [hx]))
    have hc' := bumpIfHit_eq (c := c) hp.1 hp.2 e3
    simp only [List.map_cons, probeLoop, hpos, e1]
    rw [hc', ih]
    have hov : (pk (p, c + if p ∈ l then 1 else 0)).overlap = c + if p ∈ l then 1 else 0 :=
      overlap_new hp.1 (by have := hp.2; omega)
    change (if _ then _ else _) = _
    rw [hov]
    unfold probeOne
    simp only [List.map_cons]
    by_cases ht : T ≤ (c + if p ∈ l then 1 else 0) + left
    · rw [if_pos ht, List.filter_cons_of_pos (by simpa using ht)]; rfl
    · rw [if_neg ht, List.filter_cons_of_neg (by simpa using ht)]; rfl

/-- Candidates during the second phase: exactly the positions that can still reach `T`. -/
structure CntT (C : List (Nat × Nat)) (f : Nat → Nat) (T left : Nat) : Prop where
  asc : C.Pairwise (fun a b => a.1 < b.1)
  mem : ∀ p c, (p, c) ∈ C ↔ c = f p ∧ 0 < c ∧ T ≤ c + left

theorem probeOne_cntT {C : List (Nat × Nat)} {f : Nat → Nat} {T left : Nat} {l : List Nat}
    (h : CntT C f T (left + 1)) (hT : left + 1 < T) :
    CntT (probeOne T left C l) (fun p => f p + if p ∈ l then 1 else 0) T left := by
  refine ⟨?_, ?_⟩
  · refine List.Pairwise.sublist List.filter_sublist ?_
    rw [List.pairwise_map]
    exact h.asc
  · intro p c
    unfold probeOne
    simp only [List.mem_filter, List.mem_map, Prod.mk.injEq, decide_eq_true_eq, Prod.exists]
    constructor
    · rintro ⟨⟨p', c', hm, rfl, rfl⟩, ht⟩
      have := (h.mem p' c').1 hm
      refine ⟨by rw [this.1], by omega, ht⟩
    · rintro ⟨rfl, h0, ht⟩
      refine ⟨⟨p, f p, (h.mem p _).2 ⟨rfl, ?_, ?_⟩, rfl, rfl⟩, ht⟩
      · split at ht <;> omega
      · split at ht <;> omega

theorem probeOne_fits {C : List (Nat × Nat)} {T left : Nat} {l : List Nat} (h : Room C l) :
    Fits (probeOne T left C l) := by
  rintro ⟨q, d⟩ hm
  unfold probeOne at hm
  simp only [List.mem_filter, List.mem_map, Prod.mk.injEq, Prod.exists] at hm
  obtain ⟨⟨p', c', hm, rfl, rfl⟩, -⟩ := hm
  exact h _ hm

theorem CntT.room {C : List (Nat × Nat)} {f : Nat → Nat} {T left : Nat} {l : List Nat} (h : CntT C f T left) (hC : Fits C)
    (hm : ∀ p, f p + (if p ∈ l then 1 else 0) ≤ maxOverlap) : Room C l := by
  rintro ⟨p, c⟩ hx
  refine ⟨(hC _ hx).1, ?_⟩
  rw [((h.mem p c).1 hx).1]
  exact hm p

theorem probeLists_eq (S : IterSim σ) {T : Nat} : ∀ {rid : List σ} {ls : List (List Nat)}
    {C : List (Nat × Nat)} {f : Nat → Nat},
    List.Forall₂ (fun s l => S.Rep s (Iter.start l)) rid ls →
    (∀ l ∈ ls, GoodList l) → Fits C → (∀ p, f p + occurrences ls p ≤ maxOverlap) → ls.length < T →
    CntT C f T ls.length →
    ∃ C', probeLists T rid (C.map pk) = .ok (C'.map pk) ∧
      CntT C' (fun p => f p + occurrences ls p) T 0 ∧ Fits C' := by
  intro rid ls C f h
  induction h generalizing C f with
  | nil =>
    intro _ hC _ _ hcnt
    exact ⟨C, rfl, by simpa [occurrences] using hcnt, by simpa using hC⟩
  | @cons s l rid ls hr hrest ih =>
    intro hg hC hb hT hcnt
    have hgl := hg l (by simp)
    simp only [List.length_cons] at hT hcnt
    by_cases he : C = []
    · subst he
      refine ⟨[], by simp [probeLists], ⟨by simp, fun p c => ?_⟩, by simp [Fits]⟩
      constructor
      · simp
      · rintro ⟨rfl, h0, ht⟩
        exfalso
        have hocc := occurrences_le (l :: ls) p
        simp only [List.length_cons] at hocc
        have := (hcnt.mem p (f p)).2
        simp at this
        rcases Nat.eq_zero_or_pos (f p) with hz | hz
        · omega
        · have := this hz; omega
    · have hlen : rid.length = ls.length := hrest.length_eq
      have hroom : Room C l := hcnt.room hC (fun p => by have := hb p; rw [occurrences_cons] at this; omega)
      have hstep := probeLoop_eq S (T := T) (left := ls.length) (C := C) (b := 0)
        (alive_start S hr hgl.1) hcnt.asc (fun _ _ => Nat.zero_le _) hroom
      obtain ⟨C', e1, e2, e3⟩ := ih (C := probeOne T ls.length C l)
        (f := fun p => f p + if p ∈ l then 1 else 0)
        (fun l' hl' => hg l' (by simp [hl'])) (probeOne_fits hroom)
        (fun p => by have := hb p; rw [occurrences_cons] at this; omega) (by omega)
        (probeOne_cntT hcnt hT)
      refine ⟨C', ?_, ?_, e3⟩
      · have hne : (C.map pk).isEmpty = false := by simp [he]
        simp only [probeLists, hne, hlen, hstep]
        exact e1
      · have : (fun p => f p + occurrences (l :: ls) p)
            = (fun p => (f p + if p ∈ l then 1 else 0) + occurrences ls p) := by
          funext p; rw [occurrences_cons]; omega
        rw [this]; exact e2

/-- A function that reorders its argument, as `sort.Sort` does. -/
def Reorders (sort : List σ → List σ) : Prop := ∀ l, (sort l).Perm l

omit [ListIter σ] in
theorem forall₂_sort {R : σ → List Nat → Prop} {sort : List σ → List σ} (hs : Reorders sort)
    {rid : List σ} {ls : List (List Nat)} (h : List.Forall₂ R rid ls) :
    ∃ ls', List.Forall₂ R (sort rid) ls' ∧ ls'.Perm ls :=
  List.perm_comp_forall₂ (hs rid) h

theorem cpMergeMerge_eq (S : IterSim σ) (collect : κ → MergeCandidate → κ × CollectRes Err)
    {sort : List σ → List σ} (hs : Reorders sort)
    {rid : List σ} {ls : List (List Nat)} (T : Nat) (k : κ)
    (h : List.Forall₂ (fun s l => S.Rep s (Iter.start l)) rid ls) (hg : ∀ l ∈ ls, GoodList l)
    (hn : ∀ p, occurrences ls p ≤ maxOverlap) (hT : 1 ≤ T) (hTn : T ≤ ls.length) :
    ∃ out, IsTOcc ls T out ∧ cpMergeMerge collect sort rid T k = feed collect k (out.map pk) := by
  obtain ⟨ls', h', hperm⟩ := forall₂_sort hs h
  have hg' : ∀ l ∈ ls', GoodList l := fun l hl => hg l (hperm.subset hl)
  have hlen : (sort rid).length = ls'.length := h'.length_eq
  have hlen' : ls'.length = ls.length := hperm.length_eq
  obtain ⟨q, hq⟩ : ∃ q, q = (sort rid).length + 1 - T := ⟨_, rfl⟩
  have hql : q ≤ ls'.length := by omega
  have hsum : ∀ p, occurrences (ls'.take q) p + occurrences (ls'.drop q) p = occurrences ls p := fun p => by
    rw [← occurrences_append, List.take_append_drop, occurrences_perm hperm]
  obtain ⟨C, e1, e2, e3⟩ := scanLists_eq S (C := []) (f := fun _ => 0)
    (List.forall₂_take q h') (fun l hl => hg' l (List.mem_of_mem_take hl))
    (by simp [Fits]) (fun p => by have := hsum p; have := hn p; omega) ⟨by simp, by simp⟩
  simp only [Nat.zero_add, List.map_nil] at e1 e2
  have htake : (ls'.take q).length = q := by simp; omega
  have hdrop : (ls'.drop q).length = T - 1 := by simp; omega
  obtain ⟨C', f1, f2, f3⟩ := probeLists_eq S (T := T) (C := C) (f := occurrences (ls'.take q))
    (List.forall₂_drop q h') (fun l hl => hg' l (List.mem_of_mem_drop hl))
    e3 (fun p => by rw [hsum]; exact hn p) (by omega)
    ⟨e2.asc, fun p c => by rw [e2.mem]; constructor <;> intro h <;> omega⟩
  have hocc : (fun p => occurrences (ls'.take q) p + occurrences (ls'.drop q) p) = occurrences ls := by
    funext p
    exact hsum p
  rw [hocc] at f2
  have hall : C'.filter (fun x => T ≤ x.2) = C' := by
    rw [List.filter_eq_self]
    rintro ⟨p, c⟩ hx
    have := (f2.mem p c).1 hx
    simp; omega
  refine ⟨C', ⟨f2.asc, fun p c => by rw [f2.mem]; constructor <;> intro h <;> omega⟩, ?_⟩
  unfold cpMergeMerge
  simp only [← hq]
  rw [if_neg (by omega), e1]
  simp only
  rw [f1]
  simp only
  rw [report_eq collect T C' k f3, hall]

/-! ### intersection -/

theorem intersectAll_eq (S : IterSim σ) {item b : Nat} (hb : b ≤ item) : ∀ {rid : List σ} {ls : List (List Nat)},
    List.Forall₂ (fun s l => Alive S s l b) rid ls →
    ∃ rid', intersectAll item rid = .ok (decide (∀ l ∈ ls, item ∈ l), rid') ∧
      List.Forall₂ (fun s l => Alive S s l item) rid' ls := by
  intro rid ls h
  induction h with
  | nil => exact ⟨[], by simp [intersectAll], .nil⟩
  | @cons s l rid ls hr hrest ih =>
    obtain ⟨o, s', e1, e2, e3⟩ := lowerBound_alive hr hb
    obtain ⟨rid', i1, i2⟩ := ih
    unfold intersectAll
    rw [e1]
    have hrest' : List.Forall₂ (fun s l => Alive S s l item) rid ls := hrest.imp (fun _ _ h => h.mono hb)
    cases o with
    | none =>
      have : item ∉ l := fun h => by simpa using e3.2 h
      exact ⟨s' :: rid, by simp [ofOpt, this], .cons e2 hrest'⟩
    | some v =>
      by_cases hv : v = item
      · subst hv
        have : v ∈ l := e3.1 rfl
        refine ⟨s' :: rid', ?_, .cons e2 i2⟩
        simp only [ofOpt, ne_eq, not_true_eq_false, if_false, i1]
        simp [this]
      · have : item ∉ l := fun h => hv (by simpa using e3.2 h)
        exact ⟨s' :: rid, by simp [ofOpt, hv, this], .cons e2 hrest'⟩

theorem intersectLoop_eq (S : IterSim σ) (collect : κ → MergeCandidate → κ × CollectRes Err) {n n0 : Nat}
    {ls : List (List Nat)} : ∀ {fuel : Nat} {item : Nat} {xs : List Nat} {first : σ} {rest : List σ} {k : κ} {b : Nat},
    xs.length < fuel → S.Rep first ⟨item :: xs, n0⟩ → (item :: xs).Pairwise (· < ·) → b ≤ item →
    List.Forall₂ (fun s l => Alive S s l b) rest ls →
    intersectLoop collect n fuel item first rest k
      = feed collect k (((item :: xs).filter (fun x => decide (∀ l ∈ ls, x ∈ l))).map (fun x => pk (x, n))) := by
  intro fuel
  induction fuel with
  | zero => intro item xs first rest k b hf; omega
  | succ f ih =>
    intro item xs first rest k b hf hrep hsort hb hrest
    obtain ⟨rest', e1, e2⟩ := intersectAll_eq S hb hrest
    unfold intersectLoop
    rw [e1]
    simp only
    -- the continuation
    have hgo : ∀ k, (if (!ListIter.hasNext first) = true then (k, none)
        else match ListIter.next first with
          | (.error e, _) => (k, some e)
          | (.ok item', first') => intersectLoop collect n f item' first' rest' k)
        = feed collect k ((xs.filter (fun x => decide (∀ l ∈ ls, x ∈ l))).map (fun x => pk (x, n))) := by
      intro k
      have hn := S.hasNext hrep
      obtain ⟨hx1, hx2⟩ := S.next hrep
      cases xs with
      | nil =>
        have : ListIter.hasNext first = false := by rw [hn]; simp [Iter.hasNext]
        simp [this, feed]
      | cons y ys =>
        have : ListIter.hasNext first = true := by rw [hn]; simp [Iter.hasNext]
        simp only [this, Bool.not_true, Bool.false_eq_true, if_false]
        simp only [Iter.next, ofOpt] at hx1 hx2
        have hs' := List.pairwise_cons.1 hsort
        have hy := hs'.1 y (by simp)
        have := ih (item := y) (xs := ys) (first := (ListIter.next first).2) (rest := rest') (k := k)
          (b := item) (by simp at hf; omega) hx2 hs'.2 (by omega) e2
        rw [← this]
        cases hq : ListIter.next first with
        | mk r s' => rw [hq] at hx1; simp only at hx1; subst hx1; rfl
    by_cases hgood : ∀ l ∈ ls, item ∈ l
    · rw [List.filter_cons_of_pos (by simpa using hgood), List.map_cons, feed]
      rw [if_pos (by simpa using hgood)]
      change (match collect k (pk (item, n)) with
        | (k', .terminated) => (k', none)
        | (k', .err e) => (k', some e)
        | (k', .ok) => _) = _
      rcases hcol : collect k (pk (item, n)) with ⟨k', _ | _ | e⟩
      · exact hgo k'
      · rfl
      · rfl
    · rw [List.filter_cons_of_neg (by simpa using hgood)]
      rw [if_neg (by simpa using hgood)]
      exact hgo k

theorem occurrences_eq_length {ls : List (List Nat)} {p : Nat} :
    occurrences ls p = ls.length ↔ ∀ l ∈ ls, p ∈ l := by
  unfold occurrences
  rw [List.length_filter_eq_length_iff]
  simp

theorem intersect_eq (S : IterSim σ) (collect : κ → MergeCandidate → κ × CollectRes Err)
    {sort : List σ → List σ} (hs : Reorders sort)
    {rid : List σ} {ls : List (List Nat)} (k : κ)
    (h : List.Forall₂ (fun s l => S.Rep s (Iter.start l)) rid ls) (hg : ∀ l ∈ ls, GoodList l)
    (hne : ∀ l ∈ ls, l ≠ []) (hn : ls.length < 2 ^ 32) :
    ∃ out, IsTOcc ls ls.length out ∧ intersect collect sort rid k = feed collect k (out.map pk) := by
  obtain ⟨ls', h', hperm⟩ := forall₂_sort hs h
  have hg' : ∀ l ∈ ls', GoodList l := fun l hl => hg l (hperm.subset hl)
  have hlen : (sort rid).length = ls'.length := h'.length_eq
  have hlen' : ls'.length = ls.length := hperm.length_eq
  unfold intersect
  cases hq : sort rid with
  | nil =>
    rw [hq] at hlen
    have h0 : ls = [] := List.length_eq_zero_iff.1 (by simp at hlen; omega)
    exact ⟨[], isTOcc_empty (.inr h0), rfl⟩
  | cons first rest =>
    rw [hq] at h' hlen
    cases h' with
    | @cons _ l0 _ ls0 hr0 hrest =>
      have hl0 : l0 ≠ [] := hne l0 (hperm.subset (by simp))
      have hgood0 := hg' l0 (by simp)
      obtain ⟨item, xs, rfl⟩ : ∃ x xs, l0 = x :: xs := by cases l0 <;> simp_all
      have hget : ListIter.get first = .ok item := by rw [S.get hr0]; rfl
      have hlenf : ListIter.len first = xs.length + 1 := by rw [S.len hr0]; rfl
      have hn' : u32 (rest.length + 1) = ls.length := by
        unfold u32
        rw [Nat.mod_eq_of_lt] <;> simp at hlen hlen' <;> omega
      have hcard : ls.length = ls0.length + 1 := by simp at hlen'; omega
      simp only [hget, hlenf, hn']
      have halive : List.Forall₂ (fun s l => Alive S s l 0) rest ls0 := by
        have hg0 : ∀ l ∈ ls0, GoodList l := fun l hl => hg' l (by simp [hl])
        clear hn' hlen hlen' hcard hperm hne hg' h hg hq
        induction hrest with
        | nil => exact .nil
        | @cons s l ss lls hr hrest ih =>
          exact .cons (alive_start S hr (hg0 l (by simp)).1) (ih (fun l' hl' => hg0 l' (by simp [hl'])))
      have hloop := intersectLoop_eq S collect (n := ls.length) (n0 := (item :: xs).length) (ls := ls0)
        (fuel := xs.length + 1 + 1) (item := item) (xs := xs) (first := first) (rest := rest) (k := k) (b := 0)
        (by omega) hr0 hgood0.1 (Nat.zero_le _) halive
      refine ⟨((item :: xs).filter (fun x => decide (∀ l ∈ ls0, x ∈ l))).map (fun x => (x, ls.length)), ?_, ?_⟩
      · apply isTOcc_perm hperm
        refine ⟨?_, fun p c => ?_⟩
        · rw [List.pairwise_map]
          exact hgood0.1.sublist List.filter_sublist
        · have hiff := occurrences_eq_length (ls := (item :: xs) :: ls0) (p := p)
          have hle := occurrences_le ((item :: xs) :: ls0) p
          simp only [List.length_cons] at hiff hle
          simp only [List.mem_map, List.mem_filter, decide_eq_true_eq, Prod.mk.injEq]
          constructor
          · rintro ⟨a, ⟨ha1, ha2⟩, rfl, rfl⟩
            have := hiff.2 (by
              intro l hl
              rcases List.mem_cons.1 hl with rfl | hl
              · exact ha1
              · exact ha2 l hl)
            omega
          · rintro ⟨h1, h2, h3⟩
            have hall := hiff.1 (by omega)
            refine ⟨p, ⟨hall _ (by simp), fun l hl => hall l (by simp [hl])⟩, rfl, by omega⟩
      · rw [hloop, List.map_map]; rfl

end Verif
