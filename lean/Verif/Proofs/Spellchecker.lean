import Verif.Model.Spellchecker
import Verif.Spec.Predict
import Verif.Proofs.Autocomplete
import Verif.Props.Autocomplete
/- Proofs about the spell checker. -/
namespace Verif
open Spec Heap TopKQueue
open Verif.Props (packed)

section
variable {S : Type} [LinearOrder S]

/-- The language model collector during a search. -/
theorem feed_lm {K : Nat} {sc : Nat → Except Err S} {score : Nat → S} : ∀ (out : List (Nat × Nat)) {q : TopKQueue S}
    {C : Multiset (Candidate S)}, q.Holds K C → (∀ x ∈ out, x.1 < 2 ^ 32 ∧ x.2 < 2 ^ 32 ∧ sc x.1 = .ok (score x.1)) →
    ∃ q', feed (lmCollect sc) q (packed out) = (q', none) ∧
      q'.Holds K (C + ((out.map fun x => (⟨x.1, score x.1⟩ : Candidate S)) : Multiset (Candidate S)))
  | [], q, C, h, _ => ⟨q, rfl, by simpa using h⟩
  | x :: out, q, C, h, hx => by
    obtain ⟨hp, ho, hs⟩ := hx x List.mem_cons_self
    obtain ⟨q1, e1, h1⟩ := add_spec h x.1 (score x.1)
    obtain ⟨q2, e2, h2⟩ := feed_lm out h1 (fun y hy => hx y (List.mem_cons_of_mem _ hy))
    refine ⟨q2, ?_, ?_⟩
    · simp only [packed, List.map_cons, feed, lmCollect, MergeCandidate.position_new hp ho, hs, e1]
      exact e2
    · have : C + (((x :: out).map fun x => (⟨x.1, score x.1⟩ : Candidate S)) : Multiset (Candidate S))
          = (⟨x.1, score x.1⟩ ::ₘ C) + ((out.map fun x => (⟨x.1, score x.1⟩ : Candidate S)) : Multiset (Candidate S)) := by
        rw [List.map_cons, ← Multiset.cons_coe, Multiset.add_cons, Multiset.cons_add]
      rw [this]; exact h2

variable [Inhabited S] {Env : Type} {docs : List Doc} {q : List String} {ix : SegIndices (TopKQueue S) Env} {n K : Nat}
  (hs : SegmentsOk ix docs q) (hd : DocsAny docs q n) (hq : 1 ≤ n) {sc : Nat → Except Err S} {score : Nat → S}
  (hsc : ∀ d ∈ docs, sc d.id = .ok (score d.id))

include hs hd hq hsc in
theorem lm_ok (hK : 0 < K) : CollectorOk (S := S) ⟨ix, n, K, emptyQueue K, lmCollect sc, TopKQueue.merge⟩
    (matchAt docs q fun d => ⟨d.id, score d.id⟩) (fun b k => k.Holds K (matchAt docs q (fun d => ⟨d.id, score d.id⟩) b))
    (fun g C => g.Holds K C) K where
  skip := matchAt_skip _ hs hd hq
  init e0 := new_holds hK e0
  search {b f} hf env := by
    obtain ⟨out, o1, o2, o3⟩ := hs.some b f hf env (lmCollect sc) n hq (emptyQueue K)
    have he : out = (matchDocs docs q b).map fun d => (d.id, shared q d) := by
      have := out_eq (c := (⟨realOps 0, exactMetric (realOps 0), ⟨0, fun _ => none⟩, n, 0, 0⟩ : SConf ℝ Env)) hd o1 o2
      rw [this]
      unfold matchDocs
      rw [hd.len]
    have h0 : (emptyQueue K : TopKQueue S).Holds K 0 :=
      new_holds hK (by unfold TopKQueue.new emptyQueue; rw [if_neg (by omega)])
    obtain ⟨q', e1, h1⟩ := feed_lm (sc := sc) (score := score) out h0 (by
      intro x hx
      rw [he] at hx
      obtain ⟨d, hdm, rfl⟩ := List.mem_map.1 hx
      have hdd : d ∈ docs := List.mem_of_mem_filter hdm
      exact ⟨hd.id32 d hdd, lt_of_le_of_lt (shared_le_query q d) (by rw [hd.len]; exact hd.qlen), hsc d hdd⟩)
    refine ⟨q', ?_, ?_⟩
    · show f env (lmCollect sc) (n : Int) (emptyQueue K) = _
      rw [o3]; exact e1
    · rw [zero_add, he, List.map_map] at h1
      exact h1
  commit {g C} h b k hk := merge_spec h hk
  final h := (getCandidates_spec h).1

end

/-! ### A search that panics -/

section
variable {κ S Env : Type} [LinearOrder S] [Inhabited S] {c : AConf κ S Env} {b₀ : Nat}

/-- No collector for the size `b₀` is ever handed to the manager. -/
structure PInv (c : AConf κ S Env) (b₀ : Nat) (s : AState κ S) : Prop where
  pending : s.panicked = none → b₀ ∈ s.toSpawn ∨ ∃ i : Nat, s.workers[i]? = some (AWorker.started b₀)
  started : ∀ b, (.started b : AWorker κ) ∈ s.workers → c.indices.get b ≠ none

variable (hb : b₀ ∈ sizesA c) {f} (hget : c.indices.get b₀ = some f) {e : Err} (hp : e.isPanic = true)
  (hsearch : ∀ env, ∃ k, f env c.collect c.termsLen c.create = (k, some e))

include hb hget hp hsearch in
theorem pinv {s : AState κ S} (h : c.Reachable s) : PInv c b₀ s := by
  induction h with
  | start h =>
    unfold AConf.start at h
    split at h
    · cases h
    · cases h
      exact ⟨fun _ => .inl hb, by simp⟩
  | step _ h ih =>
    obtain ⟨hpend, hst⟩ := ih
    have stset : ∀ {ws : List (AWorker κ)} {i : Nat} {w : AWorker κ}, (∀ b, (.started b : AWorker κ) ∈ ws → c.indices.get b ≠ none) →
        (∀ b, w ≠ .started b) → ∀ b, (.started b : AWorker κ) ∈ ws.set i w → c.indices.get b ≠ none := by
      intro ws i w h1 h2 b hm
      rcases List.mem_or_eq_of_mem_set hm with h | h
      · exact h1 b h
      · exact absurd h.symm (h2 b)
    cases h with
    | skip hnp hsp hg =>
      rename_i b rest
      refine ⟨fun _ => ?_, hst⟩
      rcases hpend hnp with h | h
      · rw [hsp] at h
        rcases List.mem_cons.1 h with rfl | h
        · rw [hget] at hg; cases hg
        · exact .inl h
      · exact .inr h
    | spawn hnp hsp hg =>
      rename_i b rest
      refine ⟨fun _ => ?_, ?_⟩
      · rcases hpend hnp with h | ⟨i, h⟩
        · rw [hsp] at h
          rcases List.mem_cons.1 h with rfl | h
          · right
            obtain ⟨i, hi⟩ := List.mem_iff_getElem?.1 (List.mem_append_right _ (List.mem_singleton_self (AWorker.started b₀)))
            exact ⟨i, hi⟩
          · exact .inl h
        · right
          refine ⟨i, ?_⟩
          show (_ ++ _)[i]? = _
          rw [List.getElem?_append_left (by
            by_contra hlt
            rw [List.getElem?_eq_none (by omega)] at h
            cases h)]
          exact h
      · intro b' hm
        rcases List.mem_append.1 hm with h | h
        · exact hst b' h
        · simp only [List.mem_singleton, AWorker.started.injEq] at h
          subst h; exact hg
    | search env hnp hw hg hres =>
      rename_i b f' items i
      refine ⟨fun _ => ?_, stset hst (by simp)⟩
      rcases hpend hnp with h | ⟨j, h⟩
      · exact .inl h
      · right
        by_cases hij : i = j
        · subst hij
          rw [hw] at h
          simp only [Option.some.injEq, AWorker.started.injEq] at h
          subst h
          obtain ⟨k, hk⟩ := hsearch env
          rw [hget] at hg
          cases hg
          rw [hk] at hres
          simp at hres
        · exact ⟨j, by show (List.set _ _ _)[j]? = _; rw [List.getElem?_set_ne hij]; exact h⟩
    | searchErr env hnp hw hg hres hpe =>
      rename_i b f' items e' i
      refine ⟨fun _ => ?_, stset hst (by simp)⟩
      rcases hpend hnp with h | ⟨j, h⟩
      · exact .inl h
      · right
        by_cases hij : i = j
        · subst hij
          rw [hw] at h
          simp only [Option.some.injEq, AWorker.started.injEq] at h
          subst h
          obtain ⟨k, hk⟩ := hsearch env
          rw [hget] at hg
          cases hg
          rw [hk] at hres
          simp only [Prod.mk.injEq, Option.some.injEq] at hres
          rw [← hres.2, hp] at hpe; cases hpe
        · exact ⟨j, by show (List.set _ _ _)[j]? = _; rw [List.getElem?_set_ne hij]; exact h⟩
    | searchPanic env hnp hw hg hres hpe => exact ⟨by simp, hst⟩
    | commit hnp hw hm =>
      rename_i b items g i
      refine ⟨fun _ => ?_, stset hst (by simp)⟩
      rcases hpend hnp with h | ⟨j, h⟩
      · exact .inl h
      · right
        by_cases hij : i = j
        · subst hij
          rw [hw] at h; cases h
        · exact ⟨j, by show (List.set _ _ _)[j]? = _; rw [List.getElem?_set_ne hij]; exact h⟩
    | commitPanic hnp hw hm => exact ⟨by simp, hst⟩

include hb hget hp hsearch in
theorem pinv_not_final {s : AState κ S} (h : c.Reachable s) : ¬ s.final := by
  rintro ⟨f1, f2, f3⟩
  rcases (pinv hb hget hp hsearch h).pending f1 with h' | ⟨i, h'⟩
  · rw [f2] at h'; cases h'
  · obtain ⟨e', he'⟩ := f3 _ (List.mem_of_getElem? h')
    cases he'

include hb hget hp hsearch in
/-- Then the call panics, and it never returns. -/
theorem apanics [Nonempty Env] (hlim : 0 ≤ c.limit) : AutocompletePanics c ∧ ∀ r, ¬ AutocompleteReturns c r := by
  refine ⟨?_, fun r => ?_⟩
  swap
  · rintro ⟨s, hre, hf, _⟩
    exact pinv_not_final hb hget hp hsearch hre hf
  right
  obtain ⟨s0, hs0⟩ : ∃ s, c.start = .ok s := by
    unfold AConf.start TopKQueue.new
    rw [if_neg (by omega)]
    exact ⟨_, rfl⟩
  have : ∀ (w : Nat) s, c.Reachable s → s.weight ≤ w → ∃ s', c.Reachable s' ∧ s'.panicked ≠ none := by
    intro w
    have step : ∀ s, c.Reachable s → s.panicked = none → ∃ s', c.Step s s' := by
      intro s hre np
      have hi := pinv hb hget hp hsearch hre
      rcases hi.pending np with h | ⟨i, h⟩
      · cases hsp : s.toSpawn with
        | nil => rw [hsp] at h; cases h
        | cons b rest =>
          by_cases hg : c.indices.get b = none
          · exact ⟨_, .skip np hsp hg⟩
          · exact ⟨_, .spawn np hsp hg⟩
      · obtain ⟨env⟩ := ‹Nonempty Env›
        obtain ⟨k, hk⟩ := hsearch env
        exact ⟨_, .searchPanic env np h hget hk hp⟩
    induction w with
    | zero =>
      intro s hre hw
      by_cases np : s.panicked = none
      · obtain ⟨s', h⟩ := step s hre np
        have := aweight_step h; omega
      · exact ⟨s, hre, np⟩
    | succ w ih =>
      intro s hre hw
      by_cases np : s.panicked = none
      · obtain ⟨s', h⟩ := step s hre np
        have := aweight_step h
        exact ih s' (hre.step h) (by omega)
      · exact ⟨s, hre, np⟩
  exact this _ s0 (.start hs0) le_rfl

end

/-! ### No tokens -/

section
variable {S : Type} [LinearOrder S] [Inhabited S]

theorem lm_no_tokens {ρ : Roaring} {sort : List (PList ρ) → List (PList ρ)} {oi : OpenIndex} {sc : Nat → Except Err S} {K : Nat} :
    CollectorOk (lmAutocompleteCall ρ sort oi [] sc K) (fun _ => 0) (fun _ k => k = emptyQueue K)
      (fun g C => g.len = 0 ∧ C = 0) K where
  skip _ := rfl
  init {g} h := by
    have h : TopKQueue.new (K : Int) = .ok g := h
    unfold TopKQueue.new at h
    rw [if_neg (by omega)] at h
    cases h
    exact ⟨rfl, rfl⟩
  search {b f} hf env := by
    refine ⟨_, ?_, rfl⟩
    simp only [lmAutocompleteCall, builtIndices] at hf
    rw [if_pos (by omega)] at hf
    obtain ⟨tab, _, rfl⟩ := Option.map_eq_some_iff.1 hf
    simp [search, filterTerms, openAll, cpMerge, optimizerMerge, lmAutocompleteCall]
  commit {g C} h b k hk := by
    subst hk
    exact ⟨g, by simp [lmAutocompleteCall, TopKQueue.merge, emptyQueue, addAll], by simpa using h⟩
  final {g C} h := by
    have : C = [] := by simpa using h.2
    subst this
    simp [getCandidates, h.1, best]

end

/-! ### Merging -/

section
variable {S : Type}

theorem merge_append (a b : List (Candidate S)) (hb : (b.map Candidate.key).Nodup) :
    mergeCandidates a b = a ++ b.filter fun y => !hasKey a y := by
  unfold mergeCandidates
  induction b generalizing a with
  | nil => simp
  | cons y b ih =>
    rw [List.map_cons, List.nodup_cons] at hb
    rw [List.foldl_cons, List.filter_cons]
    split
    · rename_i h
      rw [ih _ hb.2]
      simp [h]
    · rename_i h
      rw [ih _ hb.2]
      simp only [Bool.not_eq_true] at h
      rw [if_pos (by simp [h]), List.append_assoc, List.singleton_append]
      congr 2
      apply List.filter_congr
      intro z hz
      have : (y.key == z.key) = false := by
        rw [beq_eq_false_iff_ne]
        intro e
        exact hb.1 (e ▸ List.mem_map_of_mem hz)
      simp [hasKey, this]

theorem hasKey_iff {a : List (Candidate S)} {y : Candidate S} : hasKey a y = true ↔ y.key ∈ a.map Candidate.key := by
  simp [hasKey, List.any_eq_true]

theorem merge_keys (a b : List (Candidate S)) (hb : (b.map Candidate.key).Nodup) :
    (mergeCandidates a b).map Candidate.key
      = a.map Candidate.key ++ (b.map Candidate.key).filter (· ∉ a.map Candidate.key) := by
  rw [merge_append a b hb, List.map_append, List.filter_map]
  congr 2
  apply List.filter_congr
  intro y _
  rw [Bool.eq_iff_iff]
  have := hasKey_iff (a := a) (y := y)
  simp only [Function.comp, decide_not, Bool.not_eq_true', decide_eq_false_iff_not, ← this]
  simp

end

/-! ### Sorting -/

theorem foldE_scores {S : Type} {sc : Nat → Except Err S} {score : Nat → S} (cs : List (Candidate S))
    (h : ∀ c ∈ cs, sc c.key = .ok (score c.key)) (acc : List (S × Candidate S)) :
    foldE (scoredStep sc) acc cs = .ok (acc ++ cs.map fun c => (score c.key, c)) := by
  induction cs generalizing acc with
  | nil => simp [foldE]
  | cons c cs ih =>
    simp only [foldE, scoredStep, h c List.mem_cons_self]
    rw [ih (fun c hc => h c (List.mem_cons_of_mem _ hc))]
    simp

theorem mergeSort_map {α β : Type} (f : α → β) (r : α → α → Bool) (s : β → β → Bool) (h : ∀ a b, r a b = s (f a) (f b))
    (l : List α) : (l.mergeSort r).map f = (l.map f).mergeSort s := by
  exact List.map_mergeSort (fun a _ b _ => h a b)

theorem sortCandidates_eq {S : Type} [LinearOrder S] {sc : Nat → Except Err S} {score : Nat → S} (cs : List (Candidate S))
    (h : ∀ c ∈ cs, sc c.key = .ok (score c.key)) :
    ∃ cs', sortCandidates sc cs = .ok cs' ∧ cs'.map Candidate.key = byScore score (cs.map Candidate.key) := by
  unfold sortCandidates
  rw [foldE_scores cs h]
  refine ⟨_, rfl, ?_⟩
  simp only [List.nil_append]
  have e1 : (cs.map fun c => (score c.key, c)).mergeSort (fun x y => decide (y.1 ≤ x.1))
      = (cs.mergeSort fun x y => decide (score y.key ≤ score x.key)).map fun c => (score c.key, c) := by
    rw [mergeSort_map (fun c : Candidate S => (score c.key, c)) _ (fun x y => decide (y.1 ≤ x.1)) (by simp)]
  rw [e1, List.map_map, List.map_map]
  unfold byScore
  rw [← mergeSort_map Candidate.key (fun x y => decide (score y.key ≤ score x.key)) _ (by simp)]
  rfl

end Verif
