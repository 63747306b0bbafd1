import Verif.Proofs.Autocomplete
import Verif.Props.Suggest
/-!
Property theorem C33 (pkg/suggest/autocomplete.go).

`autocompleteCall ρ sort oi q limit` — the call of `Autocomplete` on the opened index for a query with the tokens `q`.
`containing docs q` — the ids (ascending) of the documents that contain every token.
-/
namespace Verif.Props
open Verif Spec

section
variable {ρ : Roaring} (L : ρ.Lawful) {G : Gob} (LG : G.Lawful) {docs : List Doc} (hd : GoodDocs docs)
  (hf : FirstNonempty docs) {oi : OpenIndex} (hoi : IndexOf ρ G docs oi)
  {sort : List (PList ρ) → List (PList ρ)} (hs : ∀ r, (sort r).Perm r) {q : List String} (hq : FewCommon docs q)
  (hqd : q.Nodup)

theorem containing_eq (docs : List Doc) (q : List String) :
    containing docs q = (docs.filter fun d => decide (q.length ≤ shared q d)).map Doc.id := by
  unfold containing
  congr 1
  apply List.filter_congr
  intro d _
  rw [Bool.eq_iff_iff]
  simp only [List.all_eq_true, decide_eq_true_eq]
  show _ ↔ q.length ≤ (q.filter (· ∈ d.terms)).length
  constructor
  · intro h
    rw [List.filter_eq_self.2 (by simpa using h)]
  · intro h t ht
    have h1 := List.length_filter_eq_length_iff.1 (le_antisymm (List.length_filter_le _ q) h)
    simpa using h1 t ht

include L LG hd hf hoi hs hq hqd in
/-- **C33** Under every schedule `Autocomplete` returns the `limit` documents with the smallest ids (all of them, if there
are fewer) among those that contain all tokens of the query, in ascending order (the score is minus the id). -/
theorem C33_autocomplete (hq0 : q ≠ []) {limit : Nat} {r : Except Err (List (Candidate ℚ))}
    (hr : AutocompleteReturns (autocompleteCall ρ sort oi q limit) r) :
    r = .ok (((containing docs q).take limit).map fun id => ⟨id, -(id : ℚ)⟩) := by
  obtain ⟨s, hre, hfin, rfl⟩ := hr
  have hlen : 1 ≤ q.length := List.length_pos_iff.2 hq0
  have hcol := firstK_ok (K := limit) (segmentsOk (κ := List MergeCandidate) L LG hd hf hoi hs hq)
    (docsOk_of_good hd hqd (by have := hq.len; omega)).toDocsAny hlen
  rw [afinal (c := autocompleteCall ρ sort oi q limit) hcol hre hfin
    (matchAt_sum idCand (segmentsOk (κ := List MergeCandidate) L LG hd hf hoi hs hq) (docsOk_of_good hd hqd (by have := hq.len; omega)).toDocsAny hlen hqd),
    containing_eq, List.map_take, List.map_map]
  unfold best
  rw [List.mergeSort_of_pairwise]
  · rfl
  · rw [List.pairwise_map]
    refine (hd.ids.filter _).imp ?_
    intro a b hab
    rw [betterEq_iff]
    left
    simp only [idCand, neg_lt_neg_iff]
    exact_mod_cast hab

include L LG hd hf hoi hs hq in
/-- **C33** The same for any list of tokens, with repetitions (they arise when characters outside the alphabet are replaced):
the documents returned contain all tokens and have at least as many terms as there are tokens. -/
theorem C33_any_tokens (hq0 : q ≠ []) {limit : Nat} {r : Except Err (List (Candidate ℚ))}
    (hr : AutocompleteReturns (autocompleteCall ρ sort oi q limit) r) :
    r = .ok (((docs.filter fun d => decide ((∀ t ∈ q, t ∈ d.terms) ∧ q.length ≤ d.terms.length)).take limit).map fun d => ⟨d.id, -(d.id : ℚ)⟩) := by
  obtain ⟨s, hre, hfin, rfl⟩ := hr
  have hlen : 1 ≤ q.length := List.length_pos_iff.2 hq0
  have hdo : DocsAny docs q q.length := ⟨hd.ids, hd.id32, hd.terms, rfl, by have := hq.len; omega⟩
  have hcol := firstK_ok (K := limit) (segmentsOk (κ := List MergeCandidate) L LG hd hf hoi hs hq) hdo hlen
  have hfil : (docs.filter fun d => decide (q.length ≤ shared q d ∧ q.length ≤ d.terms.length)) =
      docs.filter fun d => decide ((∀ t ∈ q, t ∈ d.terms) ∧ q.length ≤ d.terms.length) := by
    apply List.filter_congr
    intro d _
    rw [Bool.eq_iff_iff]
    simp only [decide_eq_true_eq]
    refine and_congr_left fun _ => ?_
    show q.length ≤ (q.filter (· ∈ d.terms)).length ↔ _
    constructor
    · intro h t ht
      have h1 := List.length_filter_eq_length_iff.1 (le_antisymm (List.length_filter_le _ q) h)
      simpa using h1 t ht
    · intro h
      rw [List.filter_eq_self.2 (by simpa using h)]
  have hsum := matchAt_sum_any idCand (segmentsOk (κ := List MergeCandidate) L LG hd hf hoi hs hq) hdo hlen
  rw [hfil] at hsum
  rw [afinal (c := autocompleteCall ρ sort oi q limit) hcol hre hfin hsum]
  unfold best
  rw [List.mergeSort_of_pairwise, List.map_take]
  · rfl
  · rw [List.pairwise_map]
    refine (hd.ids.filter _).imp ?_
    intro a b hab
    rw [betterEq_iff]
    left
    simp only [idCand, neg_lt_neg_iff]
    exact_mod_cast hab

include L LG hd hf hoi hs hq in
/-- **C33** … and it always returns: no panic, no blocking, no infinite run, under any schedule. -/
theorem C33_terminates (hq0 : q ≠ []) {limit : Nat} :
    let c := autocompleteCall ρ sort oi q limit
    ¬ AutocompletePanics c ∧ ¬ AutocompleteBlocks c ∧ (∀ f : Nat → AState (List MergeCandidate) ℚ, ¬ ∀ i, c.Step (f i) (f (i + 1))) ∧
      ∃ r, AutocompleteReturns c r := by
  intro c
  have hlen : 1 ≤ q.length := List.length_pos_iff.2 hq0
  have hso := segmentsOk (κ := List MergeCandidate) L LG hd hf hoi hs hq
  have hdo : DocsAny docs q q.length := ⟨hd.ids, hd.id32, hd.terms, rfl, by have := hq.len; omega⟩
  have hcol := firstK_ok (K := limit) hso hdo hlen
  have : Nonempty (Nat → SkipList) := ⟨fun _ => ⟨⟨[], 0⟩, 0, 0, 0, 0, 0, 0, false⟩⟩
  refine aterminates (c := c) hcol ?_
  unfold AConf.start
  obtain ⟨q0, e0⟩ := TopKQueue.new_ok (S := ℚ) limit
  have : TopKQueue.new c.limit = .ok q0 := e0
  rw [this]
  exact ⟨_, rfl⟩

end

/-- **C33** boundary: a query without tokens (for example shorter than the n-gram size) gives no result, although
every document contains all of its (zero) tokens. -/
theorem C33_no_tokens {ρ : Roaring} {sort : List (PList ρ) → List (PList ρ)}
    {oi : OpenIndex} {limit : Nat}
    {r : Except Err (List (Candidate ℚ))} (hr : AutocompleteReturns (autocompleteCall ρ sort oi [] limit) r) :
    r = .ok [] := by
  obtain ⟨s, hre, hfin, rfl⟩ := hr
  have hget : ∀ b : Nat, ∀ f, (autocompleteCall ρ sort oi [] limit).indices.get b = some f →
      ∀ env collect k, f env collect 0 k = (k, none) := by
    intro b f hb env collect k
    simp only [autocompleteCall, builtIndices] at hb
    rw [if_pos (by omega)] at hb
    obtain ⟨tab, _, rfl⟩ := Option.map_eq_some_iff.1 hb
    simp [search, filterTerms, openAll, cpMerge, optimizerMerge]
  have hinv : s.panicked = none ∧ s.queue.len = 0 ∧ ∀ w ∈ s.workers, (∀ b items, w = .found b items → items = []) ∧
      ∀ e, w = .done e → e = none := by
    clear hfin
    induction hre with
    | start h =>
      unfold AConf.start at h
      obtain ⟨q0, e0⟩ := TopKQueue.new_ok (S := ℚ) limit
      have e1 : TopKQueue.new (autocompleteCall ρ sort oi [] limit).limit = .ok q0 := e0
      rw [e1] at h
      simp only [Except.ok.injEq] at h
      subst h
      refine ⟨rfl, ?_, by simp⟩
      simp only [TopKQueue.new] at e0
      rw [if_neg (by omega)] at e0
      cases e0; rfl
    | step _ h ih =>
      obtain ⟨np, ql, wk⟩ := ih
      have mset : ∀ {ws : List (AWorker (List MergeCandidate))} {i : Nat} {w' : AWorker (List MergeCandidate)}, (∀ w ∈ ws, (∀ b items, w = .found b items → items = []) ∧
          ∀ e, w = .done e → e = none) → ((∀ b items, w' = .found b items → items = []) ∧ ∀ e, w' = .done e → e = none) →
          ∀ w ∈ ws.set i w', (∀ b items, w = .found b items → items = []) ∧ ∀ e, w = .done e → e = none := by
        intro ws i w' hws hw' w hw
        rcases List.mem_or_eq_of_mem_set hw with h | rfl
        · exact hws w h
        · exact hw'
      cases h with
      | skip _ _ _ => exact ⟨np, ql, wk⟩
      | spawn _ _ _ =>
        refine ⟨np, ql, fun w hw => ?_⟩
        rcases List.mem_append.1 hw with h | h
        · exact wk w h
        · simp only [List.mem_singleton] at h
          subst h; simp
      | search env _ hw hg hres =>
        have hres' := hget _ _ hg env (firstKCollect limit) []
        refine ⟨np, ql, mset wk ⟨?_, by simp⟩⟩
        intro b items he
        simp only [AWorker.found.injEq] at he
        have : (_, _) = _ := hres'.symm.trans hres
        rw [← he.2]
        simpa using (congrArg Prod.fst this).symm
      | searchErr env _ hw hg hres hp =>
        have := (hget _ _ hg env (firstKCollect limit) []).symm.trans hres
        simp at this
      | searchPanic env _ hw hg hres hp =>
        have := (hget _ _ hg env (firstKCollect limit) []).symm.trans hres
        simp at this
      | commit _ hw hm =>
        have hi := (wk _ (List.mem_of_getElem? hw)).1 _ _ rfl
        subst hi
        simp only [autocompleteCall, firstKMerge, List.map_nil, TopKQueue.addAll, Except.ok.injEq] at hm
        subst hm
        exact ⟨np, ql, mset wk ⟨by simp, by simp⟩⟩
      | commitPanic _ hw hm =>
        have hi := (wk _ (List.mem_of_getElem? hw)).1 _ _ rfl
        subst hi
        simp [autocompleteCall, firstKMerge, TopKQueue.addAll] at hm
  obtain ⟨np, ql, wk⟩ := hinv
  unfold AState.result
  split
  · rename_i e es heq
    have hm : e ∈ s.workers.filterMap AWorker.err? := by rw [heq]; simp
    obtain ⟨w, hw, hwe⟩ := List.mem_filterMap.1 hm
    obtain ⟨e', rfl⟩ := hfin.2.2 w hw
    rw [(wk _ hw).2 e' rfl] at hwe
    simp [AWorker.err?] at hwe
  · simp [TopKQueue.getCandidates, ql]

/-- **C33** boundary: a negative `limit` panics at once. -/
theorem C33_negative_limit_panics {ρ : Roaring} {sort : List (PList ρ) → List (PList ρ)} {oi : OpenIndex}
    {q : List String} {limit : Int} (h : limit < 0) : AutocompletePanics (autocompleteCall ρ sort oi q limit) := by
  left
  refine ⟨.panicMake, ?_⟩
  have : TopKQueue.new (S := ℚ) (autocompleteCall ρ sort oi q limit).limit = .error .panicMake := by
    show TopKQueue.new limit = _
    unfold TopKQueue.new; rw [if_pos h]
  unfold AConf.start; rw [this]

/-- Non-vacuity: documents 0 and 7 contain "ab" and "bc"; with `limit` 1 only document 0 is returned. -/
example : ∃ (ρ : Roaring) (oi : OpenIndex), ∀ sort : List (PList ρ) → List (PList ρ), (∀ r, (sort r).Perm r) →
    (∃ r, AutocompleteReturns (autocompleteCall ρ sort oi ["ab", "bc"] 1) r) ∧
    (∀ r, AutocompleteReturns (autocompleteCall ρ sort oi ["ab", "bc"] 1) r → r = .ok [⟨0, 0⟩]) ∧
    ∀ r, AutocompleteReturns (autocompleteCall ρ sort oi ["ab", "bc"] 5) r → r = .ok [⟨0, 0⟩, ⟨7, -7⟩] := by
  obtain ⟨ρ, L, G, LG, oi, hoi⟩ := example_indexOf
  obtain ⟨hd, hf⟩ := exampleDocs_good
  have e : containing exampleDocs ["ab", "bc"] = [0, 7] := by decide
  refine ⟨ρ, oi, fun sort hs => ⟨?_, fun r hr => ?_, fun r hr => ?_⟩⟩
  · exact (C33_terminates L LG hd hf hoi hs (q := ["ab", "bc"]) (.of_short (by decide)) (by simp) (limit := 1)).2.2.2
  · rw [C33_autocomplete L LG hd hf hoi hs (q := ["ab", "bc"]) (.of_short (by decide)) (by decide) (by simp) (limit := 1) hr, e]
    simp
  · rw [C33_autocomplete L LG hd hf hoi hs (q := ["ab", "bc"]) (.of_short (by decide)) (by decide) (by simp) (limit := 5) hr, e]
    simp

end Verif.Props
