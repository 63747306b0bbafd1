import Verif.Proofs.MergeSkip
import Mathlib.Analysis.SpecialFunctions.Log.Basic
import Mathlib.Algebra.Order.Floor.Ring

namespace Verif
open Spec MergeCandidate
variable {σ κ : Type} [ListIter σ]

/-- The optimizer is correct if the merger it wraps is correct for `T < n`. -/
theorem optimizerMerge_eq (S : IterSim σ) (collect : κ → MergeCandidate → κ × CollectRes Err)
    {sort : List σ → List σ} (hs : Reorders sort) (merge : List σ → Nat → κ → κ × Option Err)
    {rid : List σ} {ls : List (List Nat)} (T : Nat) (k : κ)
    (h : List.Forall₂ (fun s l => S.Rep s (Iter.start l)) rid ls) (hg : ∀ l ∈ ls, GoodList l)
    (hne : ls.length = T → ∀ l ∈ ls, l ≠ []) (hn : ls.length < 2 ^ 32)
    (hm : T < ls.length → ∃ out, IsTOcc ls T out ∧ merge rid T k = feed collect k (out.map pk)) :
    ∃ out, IsTOcc ls T out ∧ optimizerMerge collect sort merge rid T k = feed collect k (out.map pk) := by
  have hlen : rid.length = ls.length := h.length_eq
  unfold optimizerMerge
  simp only [hlen]
  by_cases h1 : (ls.length : Int) < (T : Int) ∨ (ls.length : Int) = 0 ∨ (T : Int) < 0
  · rw [if_pos h1]
    refine ⟨[], isTOcc_empty ?_, rfl⟩
    rcases h1 with h1 | h1 | h1
    · left; omega
    · right; exact List.length_eq_zero_iff.1 (by omega)
    · omega
  · rw [if_neg h1]
    by_cases h2 : (ls.length : Int) = (T : Int)
    · rw [if_pos h2]
      have hT : ls.length = T := by omega
      have := intersect_eq S collect hs k h hg (hne hT) hn
      rw [hT] at this
      exact this
    · rw [if_neg h2, Int.toNat_natCast]
      exact hm (by omega)

theorem feed_simpleCollect (acc xs : List MergeCandidate) : feed simpleCollect acc xs = (acc ++ xs, none) := by
  induction xs generalizing acc with
  | nil => simp [feed]
  | cons x xs ih => simp [feed, simpleCollect, ih]

theorem divideProbe_eq (S : IterSim σ) {p b : Nat} (hp : p < 2 ^ 32) (hb : b ≤ p) :
    ∀ {long : List σ} {ls : List (List Nat)} {c : Nat}, List.Forall₂ (fun s l => Alive S s l b) long ls →
    c + occurrences ls p ≤ maxOverlap →
    ∃ long', divideProbe p (pk (p, c)) long = .ok (pk (p, c + occurrences ls p), long') ∧
      List.Forall₂ (fun s l => Alive S s l p) long' ls := by
  intro long ls c h
  induction h generalizing c with
  | nil => intro _; exact ⟨[], by simp [divideProbe, occurrences], .nil⟩
  | @cons s l long ls hr hrest ih =>
    intro hc
    rw [occurrences_cons] at hc
    obtain ⟨o, s', e1, e2, e3⟩ := lowerBound_alive hr hb
    obtain ⟨long', f1, f2⟩ := ih (c := c + if p ∈ l then 1 else 0) (by omega)
    refine ⟨s' :: long', ?_, .cons e2 f2⟩
    simp only [divideProbe, e1]
    rw [bumpIfHit_eq hp (by omega) e3]
    change (divideProbe p (pk (p, c + if p ∈ l then 1 else 0)) long >>= _) = _
    rw [f1, occurrences_cons]
    change Except.ok _ = _
    simp only [Nat.add_assoc]

theorem divideLoop_eq (S : IterSim σ) (collect : κ → MergeCandidate → κ × CollectRes Err) {T : Nat}
    {ls : List (List Nat)} :
    ∀ {C : List (Nat × Nat)} {long : List σ} {b : Nat} {k : κ},
    List.Forall₂ (fun s l => Alive S s l b) long ls → C.Pairwise (fun a b => a.1 < b.1) →
    (∀ x ∈ C, b ≤ x.1) → (∀ x ∈ C, x.1 < 2 ^ 32 ∧ x.2 + occurrences ls x.1 ≤ maxOverlap) →
    divideLoop collect T (C.map pk) long k = feed collect k
      (((C.map (fun x => (x.1, x.2 + occurrences ls x.1))).filter (fun x => T ≤ x.2)).map pk)
  | [], long, b, k, _, _, _, _ => rfl
  | (p, c) :: C, long, b, k, ha, hasc, hge, hC => by
    have hmx : maxOverlap = 65535 := rfl
    have hp := hC (p, c) (by simp)
    simp only at hp
    have hpos : (pk (p, c)).position = p := position_new hp.1 (by omega)
    have hbp : b ≤ p := hge (p, c) (by simp)
    obtain ⟨long', e1, e2⟩ := divideProbe_eq S hp.1 hbp (c := c) ha (by omega)
    have hasc' := List.pairwise_cons.1 hasc
    have ih := fun k => divideLoop_eq S collect (T := T) (k := k) e2 hasc'.2
      (fun x hx => by have := hasc'.1 x hx; simp only at this; omega) (fun x hx => hC x (by simp [hx]))
    have hocc := occurrences_le ls p
    have hov : (pk (p, c + occurrences ls p)).overlap = c + occurrences ls p :=
      overlap_new hp.1 (by omega)
    simp only [List.map_cons, divideLoop, hpos, e1, hov]
    by_cases ht : T ≤ c + occurrences ls p
    · rw [if_pos ht, List.filter_cons_of_pos (by simpa using ht), List.map_cons, feed]
      rcases hcol : collect k (pk (p, c + occurrences ls p)) with ⟨k', _ | _ | e⟩
      · exact ih k'
      · rfl
      · rfl
    · rw [if_neg ht, List.filter_cons_of_neg (by simpa using ht)]
      exact ih k

theorem forall₂_alive {S : IterSim σ} {rid : List σ} {ls : List (List Nat)}
    (h : List.Forall₂ (fun s l => S.Rep s (Iter.start l)) rid ls) (hg : ∀ l ∈ ls, GoodList l) :
    List.Forall₂ (fun s l => Alive S s l 0) rid ls := by
  induction h with
  | nil => exact .nil
  | @cons s l ss lls hr hrest ih =>
    exact .cons (alive_start S hr (hg l (by simp)).1) (ih (fun l' hl' => hg l' (by simp [hl'])))

theorem divideSkipMerge_eq (S : IterSim σ) (collect : κ → MergeCandidate → κ × CollectRes Err)
    {sort sortDesc : List σ → List σ} (hs : Reorders sort) (hsd : Reorders sortDesc)
    {numLong : Nat → Nat → Int} {rid : List σ} {ls : List (List Nat)} (T : Nat) (k : κ)
    (h : List.Forall₂ (fun s l => S.Rep s (Iter.start l)) rid ls) (hg : ∀ l ∈ ls, GoodList l)
    (hne : ∀ l ∈ ls, l ≠ []) (hcount : ls.length < 2 ^ 32)
    (hn : ∀ p, occurrences ls p ≤ maxOverlap) (hTn : T < ls.length)
    (hlong : ∀ s0 rest, sortDesc rid = s0 :: rest → 0 ≤ numLong T (ListIter.len s0) ∧
      numLong T (ListIter.len s0) < T) :
    ∃ out, IsTOcc ls T out ∧
      divideSkipMerge collect sort sortDesc numLong rid T k = feed collect k (out.map pk) := by
  have hmx : maxOverlap = 65535 := rfl
  obtain ⟨ls', h', hperm⟩ := forall₂_sort hsd h
  have hg' : ∀ l ∈ ls', GoodList l := fun l hl => hg l (hperm.subset hl)
  have hne' : ∀ l ∈ ls', l ≠ [] := fun l hl => hne l (hperm.subset hl)
  have hlen : (sortDesc rid).length = ls'.length := h'.length_eq
  have hlen' : ls'.length = ls.length := hperm.length_eq
  unfold divideSkipMerge
  cases hq : sortDesc rid with
  | nil => rw [hq] at hlen; simp at hlen; omega
  | cons s0 rest =>
    obtain ⟨hl1, hl2⟩ := hlong s0 rest hq
    rw [hq] at h' hlen
    obtain ⟨l, hl⟩ : ∃ l : Nat, numLong T (ListIter.len s0) = l := ⟨_, (Int.toNat_of_nonneg hl1).symm⟩
    rw [hl] at hl2
    have hlT : l < T := by omega
    obtain ⟨R, hR⟩ : ∃ R, R = s0 :: rest := ⟨_, rfl⟩
    rw [← hR] at h' hlen
    simp only [hl, ← hR]
    rw [if_neg (by omega), Int.toNat_natCast]
    have hshort : (R.drop l).length = ls.length - l := by simp; omega
    have hemp : (R.drop l).isEmpty = false := by
      rw [← Bool.not_eq_true, List.isEmpty_iff, ← List.length_eq_zero_iff]; omega
    rw [hemp]
    have hdl : (ls'.drop l).length = ls.length - l := by simp; omega
    have htl : (ls'.take l).length = l := by simp; omega
    -- the short lists
    obtain ⟨out, o1, o2⟩ := optimizerMerge_eq S simpleCollect hs (mergeSkipMerge simpleCollect)
      (T - l) [] (List.forall₂_drop l h') (fun x hx => hg' x (List.mem_of_mem_drop hx))
      (fun _ x hx => hne' x (List.mem_of_mem_drop hx)) (by omega)
      (fun _ => mergeSkipMerge_eq S simpleCollect (T - l) [] (List.forall₂_drop l h')
        (fun x hx => hg' x (List.mem_of_mem_drop hx)) (fun x hx => hne' x (List.mem_of_mem_drop hx)) (by omega))
    have o3 : mergeSkip simpleCollect sort (R.drop l) ((T : Int) - l) [] = (out.map pk, none) := by
      unfold mergeSkip
      rw [show ((T : Int) - l) = ((T - l : Nat) : Int) by omega, o2, feed_simpleCollect]
      simp
    rw [o3]
    simp only [Bool.false_eq_true, if_false]
    have hocc : ∀ p, occurrences ls' p = occurrences (ls'.drop l) p + occurrences (ls'.take l) p := by
      intro p
      conv => lhs; rw [← List.take_append_drop l ls']
      rw [occurrences_append]; omega
    have hsmall : ∀ x ∈ out, x.1 < 2 ^ 32 ∧ x.2 + occurrences (ls'.take l) x.1 ≤ maxOverlap := by
      rintro ⟨p, c⟩ hx
      obtain ⟨rfl, -, h0⟩ := (o1.exact p c).1 hx
      refine ⟨?_, by have := hn p; rw [← occurrences_perm hperm] at this; have := hocc p; simp only; omega⟩
      unfold occurrences at h0
      rw [List.length_pos_iff_exists_mem] at h0
      obtain ⟨x, hx⟩ := h0
      rw [List.mem_filter] at hx
      exact (hg' x (List.mem_of_mem_drop hx.1)).2 p (by simpa using hx.2)
    have hloop := divideLoop_eq S collect (T := T) (ls := ls'.take l)
      (C := out) (b := 0) (k := k)
      (forall₂_alive (List.forall₂_take l h') (fun x hx => hg' x (List.mem_of_mem_take hx)))
      o1.ascending (fun _ _ => Nat.zero_le _) hsmall
    refine ⟨_, ?_, hloop⟩
    apply isTOcc_perm hperm
    refine ⟨?_, fun p c => ?_⟩
    · refine List.Pairwise.sublist List.filter_sublist ?_
      rw [List.pairwise_map]
      exact o1.ascending
    · simp only [List.mem_filter, List.mem_map, Prod.mk.injEq, decide_eq_true_eq, Prod.exists]
      constructor
      · rintro ⟨⟨p', c', hm, rfl, rfl⟩, ht⟩
        obtain ⟨rfl, -, h0⟩ := (o1.exact p' c').1 hm
        exact ⟨(hocc p').symm, ht, by omega⟩
      · rintro ⟨rfl, ht, h0⟩
        have hle := occurrences_le (ls'.take l) p
        have := hocc p
        exact ⟨⟨p, _, (o1.exact p _).2 ⟨rfl, by omega, by omega⟩, rfl, (hocc p).symm⟩, ht⟩

/-- The number of long lists over the real numbers: `int(T / (mu * ln M + 1))` (Go truncates towards
zero; `mu ≥ 0`, so this is the floor) — pkg/merger/divide_skip.go:31. Floating-point rounding is not modelled. -/
noncomputable def divideNumLong (mu : ℝ) (T M : Nat) : Int := ⌊(T : ℝ) / (mu * Real.log M + 1)⌋

theorem divideNumLong_lt {mu : ℝ} (hmu : 0 < mu) {T M : Nat} (hT : 1 ≤ T) (hM : 2 ≤ M) :
    0 ≤ divideNumLong mu T M ∧ divideNumLong mu T M < T := by
  have hlog : 0 < Real.log M := Real.log_pos (by exact_mod_cast hM)
  have hpos : 0 < mu * Real.log M := mul_pos hmu hlog
  have hT' : (0 : ℝ) < T := by exact_mod_cast hT
  constructor
  · apply Int.floor_nonneg.2
    positivity
  · rw [divideNumLong, Int.floor_lt]
    rw [div_lt_iff₀ (by linarith)]
    push_cast
    nlinarith

theorem divideNumLong_one (mu : ℝ) (T : Nat) : divideNumLong mu T 1 = T := by
  simp [divideNumLong]

end Verif
