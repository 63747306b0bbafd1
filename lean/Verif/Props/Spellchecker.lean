import Verif.Proofs.Spellchecker
import Verif.Props.Suggest
import Verif.Props.LM
/-!
Property theorems C50–C52 (pkg/spellchecker).

`PredictReturns F val sc query K α r` — under some schedule of the goroutines `Predict(query, K, α)` returns `r`.
`predictWords`, `byScore` (Verif/Spec/Predict.lean) — the words that are considered, and their order.
`val` gives the number of a language model score and is arbitrary (so rounding in `math.Log` is covered);
the cosine similarities are exact.
-/
namespace Verif.Props
open Verif Spec

/-- `word` is the last word of the query. -/
def LastWord (sc : SpellChecker) (query word : Bytes) : Prop := ∃ seq, sc.tokenize query = seq ++ [word]

/-- The index of the spell checker is an opened index of `docs`, and its tokenizer gives no n-gram of the last word of the
query twice, and not too many (C40; the mergers count with 16 bits, C12). -/
structure SpellIndex (sc : SpellChecker) (docs : List Doc) (query : Bytes) : Prop where
  lawful : Nonempty sc.ρ.Lawful
  index : ∃ G : Gob, G.Lawful ∧ IndexOf sc.ρ G docs sc.index
  good : GoodDocs docs
  first : FirstNonempty docs
  sort : ∀ r, (sc.sort r).Perm r
  prefixGrams : ∀ w, LastWord sc query w → (sc.prefixGrams w).Nodup ∧ (sc.prefixGrams w).length ≤ 0xFFFF
  grams : ∀ w, LastWord sc query w → (sc.grams w).Nodup ∧ (sc.grams w).length ≤ 0xFFFF
  small : ∀ d ∈ docs, d.terms.length < 2 ^ 31

/-- The similarity is in (0, 1], and not so small that the bound on the number of n-grams overflows int64 (C28). -/
structure GoodSimilarity (sc : SpellChecker) (query : Bytes) (α : ℝ) : Prop where
  pos : 0 < α
  le : α ≤ 1
  bound : ∀ w, LastWord sc query w → ((sc.grams w).length : ℝ) / (α * α) < 2 ^ 63

section
variable {S : Type} [LinearOrder S] [Inhabited S] {sc : SpellChecker} {docs : List Doc} {query : Bytes} (hi : SpellIndex sc docs query) {val : LMScore → S} {next : Option ScorerNext}
  {score : Nat → S} (hsc : ∀ d ∈ docs, lmScore val next d.id = .ok (score d.id))

omit [LinearOrder S] [Inhabited S] in
theorem containing_map (docs : List Doc) (q : List String) (score : Nat → S) :
    (docs.filter fun d => decide (q.length ≤ shared q d)).map (fun d => (⟨d.id, score d.id⟩ : Candidate S))
      = (containing docs q).map fun id => ⟨id, score id⟩ := by
  rw [containing_eq, List.map_map]; rfl

include hi hsc in
/-- Autocomplete with the language model collector: the `K` words with the highest scores among those that contain all
n-grams, best first. -/
theorem lm_autocomplete {w : Bytes} (hlw : LastWord sc query w) {K : Nat} (hK : 0 < K) (hw : sc.prefixGrams w ≠ []) {r : Except Err (List (Candidate S))}
    (hr : AutocompleteReturns (lmAutocompleteCall sc.ρ sc.sort sc.index (sc.prefixGrams w) (lmScore val next) K) r) :
    r = .ok (best K ((containing docs (sc.prefixGrams w)).map fun id => ⟨id, score id⟩)) := by
  obtain ⟨s, hre, hfin, rfl⟩ := hr
  obtain ⟨G, LG, hoi⟩ := hi.index
  obtain ⟨L⟩ := hi.lawful
  have hseg := segmentsOk (κ := TopKQueue S) L LG hi.good hi.first hoi hi.sort (.of_short (hi.prefixGrams w hlw).2)
  have hdo := docsOk_of_good hi.good (hi.prefixGrams w hlw).1 (by have := (hi.prefixGrams w hlw).2; omega)
  have hlen : 1 ≤ (sc.prefixGrams w).length := List.length_pos_iff.2 hw
  rw [afinal (c := lmAutocompleteCall sc.ρ sc.sort sc.index (sc.prefixGrams w) (lmScore val next) K)
    (lm_ok hseg hdo.toDocsAny hlen hsc hK) hre hfin (matchAt_sum _ hseg hdo.toDocsAny hlen hdo.query), containing_map]

theorem lm_autocomplete_empty {w : Bytes} {K : Nat} (hw : sc.prefixGrams w = []) {r : Except Err (List (Candidate S))}
    (hr : AutocompleteReturns (lmAutocompleteCall sc.ρ sc.sort sc.index (sc.prefixGrams w) (lmScore val next) K) r) :
    r = .ok [] := by
  obtain ⟨s, hre, hfin, rfl⟩ := hr
  rw [hw] at hre
  rw [afinal lm_no_tokens hre hfin (C := []) (by simp)]
  simp [best]

theorem best_key_mem {S : Type} [LinearOrder S] {K : Nat} {l : List (Candidate S)} {c : Candidate S} (h : c ∈ best K l) : c ∈ l :=
  (List.mergeSort_perm l _).mem_iff.1 (List.mem_of_mem_take h)

theorem best_keys_nodup {S : Type} [LinearOrder S] {K : Nat} {l : List (Candidate S)} (h : (l.map Candidate.key).Nodup) :
    ((best K l).map Candidate.key).Nodup := by
  unfold best
  rw [List.map_take]
  exact (((List.mergeSort_perm l _).map _).nodup_iff.2 h).sublist (List.take_sublist _ _)

theorem docs_ids_nodup {docs : List Doc} (h : docs.Pairwise fun a b => a.id < b.id) : (docs.map Doc.id).Nodup := by
  rw [List.Nodup, List.pairwise_map]
  exact h.imp fun h => by omega

open Classical in
include hi in
theorem similar_nodup (q : List String) (α : ℝ) (K : Nat) : (similarWords docs q α K).Nodup := by
  unfold similarWords suggestAnswer
  apply best_keys_nodup
  rw [List.map_map]
  exact (docs_ids_nodup hi.good.ids).sublist (List.Sublist.map _ (List.filter_sublist))

include hi in
theorem containing_nodup (q : List String) : (containing docs q).Nodup :=
  (docs_ids_nodup hi.good.ids).sublist (List.Sublist.map _ (List.filter_sublist))

include hi in
/-- The considered words are pairwise different. -/
theorem predictWords_nodup (qp q : List String) (score : Nat → ℝ) (α : ℝ) (K : Nat) : (predictWords docs qp q score α K).Nodup := by
  have h1 : (completions docs qp score K).Nodup := by
    unfold completions
    split
    · simp
    apply best_keys_nodup
    rw [List.map_map]
    have : (containing docs qp).map (Candidate.key ∘ fun id => (⟨id, score id⟩ : Candidate ℝ)) = containing docs qp := by
      conv_rhs => rw [← List.map_id (containing docs qp)]
      rfl
    rw [this]; exact containing_nodup hi qp
  unfold predictWords
  split
  · rw [List.nodup_append]
    refine ⟨h1, (similar_nodup hi q α K).filter _, ?_⟩
    intro a ha b hb e
    subst e
    have := (List.mem_filter.1 hb).2
    simp [ha] at this
  · exact h1

theorem similarWords_mem {q : List String} {α : ℝ} {K : Nat} {id : Nat} (h : id ∈ similarWords docs q α K) : id ∈ docs.map Doc.id := by
  obtain ⟨c, hc, rfl⟩ := List.mem_map.1 h
  obtain ⟨d, hd, rfl⟩ := List.mem_map.1 (best_key_mem hc)
  exact List.mem_map_of_mem (List.mem_of_mem_filter hd)

theorem predictWords_mem {qp q : List String} {score : Nat → ℝ} {α : ℝ} {K : Nat} {id : Nat}
    (h : id ∈ predictWords docs qp q score α K) : id ∈ docs.map Doc.id := by
  classical
  have h1 : ∀ id ∈ completions docs qp score K, id ∈ docs.map Doc.id := by
    intro id h
    unfold completions at h
    split at h
    · simp at h
    obtain ⟨c, hc, rfl⟩ := List.mem_map.1 h
    obtain ⟨i, hi', rfl⟩ := List.mem_map.1 (best_key_mem hc)
    exact List.Sublist.subset (List.Sublist.map _ (List.filter_sublist)) hi'
  have h2 : ∀ id ∈ similarWords docs q α K, id ∈ docs.map Doc.id := by
    intro id h
    obtain ⟨c, hc, rfl⟩ := List.mem_map.1 h
    obtain ⟨d, hd, rfl⟩ := List.mem_map.1 (best_key_mem hc)
    exact List.mem_map_of_mem (List.mem_of_mem_filter hd)
  unfold predictWords at h
  split at h
  · rcases List.mem_append.1 h with h | h
    · exact h1 _ h
    · exact h2 _ (List.mem_of_mem_filter h)
  · exact h1 _ h

omit [Inhabited S] in
include hsc in
/-- The end of `Predict`. -/
theorem finish_eq {cs : List (Candidate S)} (hcs : ∀ c ∈ cs, c.key ∈ docs.map Doc.id) (K : Nat) :
    predictFinish sc val next K cs = .ok (((byScore score (cs.map Candidate.key)).take (K + 1)).map sc.dict) := by
  have hs : ∀ c ∈ cs, lmScore val next c.key = .ok (score c.key) := by
    intro c hc
    obtain ⟨d, hd, he⟩ := List.mem_map.1 (hcs c hc)
    rw [← he]; exact hsc d hd
  have hsort : ∃ cs', predictSort val next cs = .ok cs' ∧ cs'.map Candidate.key = byScore score (cs.map Candidate.key) := by
    cases hn : next with
    | some s => rw [hn] at hs; exact sortCandidates_eq cs hs
    | none =>
      refine ⟨cs, rfl, ?_⟩
      unfold byScore
      rw [List.mergeSort_of_pairwise]
      rw [List.pairwise_map]
      refine List.pairwise_iff_forall_sublist.2 fun {a b} hab => ?_
      have ha : a ∈ cs := hab.subset (by simp)
      have hb : b ∈ cs := hab.subset (by simp)
      have h1 := hs a ha
      have h2 := hs b hb
      rw [hn] at h1 h2
      simp only [lmScore, Except.ok.injEq] at h1 h2
      simp [← h1, ← h2]
  obtain ⟨cs', e1, e2⟩ := hsort
  unfold predictFinish
  rw [e1]
  simp only
  have e3 : ∀ l : List (Candidate S), l.map (fun c => sc.dict c.key) = (l.map Candidate.key).map sc.dict := by
    intro l; rw [List.map_map]; rfl
  split
  · rw [if_neg (by omega), e3, List.map_take, e2]
    congr 4
  · rename_i hlen
    rw [e3, e2]
    congr 2
    rw [List.take_of_length_le]
    rw [← e2, List.length_map]; omega

theorem lm_start (K : Nat) (w : Bytes) (next : Option ScorerNext) :
    ∃ s, (lmAutocompleteCall sc.ρ sc.sort sc.index (sc.prefixGrams w) (lmScore val next) K).start = .ok s := by
  unfold AConf.start
  obtain ⟨q0, e0⟩ := TopKQueue.new_ok (S := S) K
  have : TopKQueue.new (lmAutocompleteCall sc.ρ sc.sort sc.index (sc.prefixGrams w) (lmScore val next) K).limit = .ok q0 := e0
  rw [this]
  exact ⟨_, rfl⟩

instance : Nonempty (Nat → SkipList) := ⟨fun _ => ⟨⟨[], 0⟩, 0, 0, 0, 0, 0, 0, false⟩⟩

include hi hsc in
/-- The first search of `Predict` always ends. -/
theorem lm_terminates {K : Nat} (hK : 0 < K) (w : Bytes) (hlw : LastWord sc query w)  :
    let c := lmAutocompleteCall sc.ρ sc.sort sc.index (sc.prefixGrams w) (lmScore val next) K
    ¬ AutocompletePanics c ∧ ¬ AutocompleteBlocks c ∧ ∃ cs, AutocompleteReturns c (.ok cs) := by
  intro c
  obtain ⟨G, LG, hoi⟩ := hi.index
  obtain ⟨L⟩ := hi.lawful
  by_cases hw : sc.prefixGrams w = []
  · have hst := lm_start (val := val) (sc := sc) K w next
    have hc : c = lmAutocompleteCall sc.ρ sc.sort sc.index [] (lmScore val next) K := by rw [← hw]
    rw [hw] at hst
    rw [hc]
    obtain ⟨h1, h2, _, r, h4⟩ := aterminates (lm_no_tokens (ρ := sc.ρ) (sort := sc.sort) (oi := sc.index) (sc := lmScore val next)
      (K := K)) hst
    refine ⟨h1, h2, ?_⟩
    have := lm_autocomplete_empty (sc := sc) (val := val) (next := next) (K := K) hw (by rw [hw]; exact h4)
    rw [this] at h4
    exact ⟨_, h4⟩
  · have hseg := segmentsOk (κ := TopKQueue S) L LG hi.good hi.first hoi hi.sort (.of_short (hi.prefixGrams w hlw).2)
    have hdo := docsOk_of_good hi.good (hi.prefixGrams w hlw).1 (by have := (hi.prefixGrams w hlw).2; omega)
    have hlen : 1 ≤ (sc.prefixGrams w).length := List.length_pos_iff.2 hw
    obtain ⟨h1, h2, _, r, h4⟩ := aterminates (c := c) (lm_ok hseg hdo.toDocsAny hlen hsc hK) (lm_start K w next)
    refine ⟨h1, h2, ?_⟩
    rw [lm_autocomplete hi hsc hlw hK hw h4] at h4
    exact ⟨_, h4⟩

include hi hsc in
/-- If fewer than `K` words contain all n-grams, fewer than `K` are found. -/
theorem lm_few {K : Nat} {w : Bytes} (hlw : LastWord sc query w)  (hK : 0 < K)
    (hfew : (containing docs (sc.prefixGrams w)).length < K) {cs : List (Candidate S)}
    (h : AutocompleteReturns (lmAutocompleteCall sc.ρ sc.sort sc.index (sc.prefixGrams w) (lmScore val next) K) (.ok cs)) :
    cs.length < K := by
  by_cases hw : sc.prefixGrams w = []
  · have := lm_autocomplete_empty hw h
    cases this
    simpa using hK
  · have := lm_autocomplete hi hsc hlw hK hw h
    cases this
    have h1 : (best K ((containing docs (sc.prefixGrams w)).map fun id => (⟨id, score id⟩ : Candidate S))).length
        ≤ (containing docs (sc.prefixGrams w)).length := by
      unfold best
      rw [List.length_take, List.length_mergeSort, List.length_map]
      exact min_le_right _ _
    omega

include hi hsc in
/-- What `Predict` returns, for any arithmetic `F` in which the fuzzy search succeeds with results `P` (different indexed
words): the considered words, highest score first, cut after `K + 1`. -/
theorem predict_returns {F : FloatOps S} {K : Nat} {α : S} (hK : 0 < K) {seq : List Bytes} {word : Bytes}
    (ht : sc.tokenize query = seq ++ [word]) (hn : spellScorer sc seq = .ok next) {P : List (Candidate S) → Prop}
    (hP : ∀ fs, P fs → (fs.map Candidate.key).Nodup ∧ ∀ c ∈ fs, c.key ∈ docs.map Doc.id)
    (hsug : ∀ {r}, SuggestReturns (suggestCall F (cosineMetric F) sc.ρ sc.sort sc.index (sc.grams word) α K) r →
      ∃ fs, r = .ok fs ∧ P fs) {r : Except Err (List Bytes)} (hr : PredictReturns F val sc query K α r) :
    ∃ considered, r = .ok (((byScore score considered).take (K + 1)).map sc.dict) ∧
      ((K ≤ (completions docs (sc.prefixGrams word) score K).length ∧ considered = completions docs (sc.prefixGrams word) score K) ∨
       ((completions docs (sc.prefixGrams word) score K).length < K ∧ ∃ fs, P fs ∧
        considered = completions docs (sc.prefixGrams word) score K ++
          (fs.map Candidate.key).filter (· ∉ completions docs (sc.prefixGrams word) score K))) := by
  classical
  have hauto : ∀ {r}, AutocompleteReturns (lmAutocompleteCall sc.ρ sc.sort sc.index (sc.prefixGrams word) (lmScore val next) K) r →
      ∃ cs, r = .ok cs ∧ cs.map Candidate.key = completions docs (sc.prefixGrams word) score K := by
    intro r h
    unfold completions
    by_cases hw : sc.prefixGrams word = []
    · exact ⟨[], lm_autocomplete_empty hw h, by simp [hw]⟩
    · exact ⟨_, lm_autocomplete hi hsc ⟨_, ht⟩ hK hw h, by rw [if_neg hw]⟩
  have hcomp : ∀ id ∈ completions docs (sc.prefixGrams word) score K, id ∈ docs.map Doc.id := by
    intro id h
    unfold completions at h
    split at h
    · simp at h
    obtain ⟨c, hc, rfl⟩ := List.mem_map.1 h
    obtain ⟨i, hi', rfl⟩ := List.mem_map.1 (best_key_mem hc)
    exact List.Sublist.subset (List.Sublist.map _ (List.filter_sublist)) hi'
  have same : ∀ {s' w'}, sc.tokenize query = s' ++ [w'] → seq = s' ∧ word = w' := by
    intro s' w' h
    rw [ht] at h
    have := List.append_inj' h rfl
    simpa using this
  cases hr with
  | noTokens h => rw [ht] at h; simp at h
  | scorerErr h1 h2 =>
    obtain ⟨rfl, rfl⟩ := same h1
    rw [hn] at h2; cases h2
  | autoErr h1 h2 h3 =>
    obtain ⟨rfl, rfl⟩ := same h1
    rw [hn] at h2; cases h2
    obtain ⟨cs, h, _⟩ := hauto h3
    cases h
  | enough h1 h2 h3 h4 =>
    rename_i cs
    obtain ⟨rfl, rfl⟩ := same h1
    rw [hn] at h2; cases h2
    obtain ⟨cs', h, hk⟩ := hauto h3
    cases h
    refine ⟨_, ?_, .inl ⟨?_, rfl⟩⟩
    · rw [finish_eq hsc, hk]
      intro c hc
      exact hcomp _ (hk ▸ List.mem_map_of_mem hc)
    · rw [← hk, List.length_map]; omega
  | fuzzyErr h1 h2 h3 h4 h5 =>
    obtain ⟨rfl, rfl⟩ := same h1
    obtain ⟨fs, e, _⟩ := hsug h5
    cases e
  | fuzzy h1 h2 h3 h4 h5 =>
    rename_i cs fs
    obtain ⟨rfl, rfl⟩ := same h1
    rw [hn] at h2; cases h2
    obtain ⟨cs', h, hk⟩ := hauto h3
    cases h
    obtain ⟨fs', h6, hp⟩ := hsug h5
    cases h6
    have e : (mergeCandidates cs fs).map Candidate.key = completions docs (sc.prefixGrams word) score K ++
          (fs.map Candidate.key).filter (· ∉ completions docs (sc.prefixGrams word) score K) := by
      rw [merge_keys _ _ (hP fs hp).1, ← hk]
    refine ⟨_, ?_, .inr ⟨?_, fs, hp, rfl⟩⟩
    · rw [finish_eq hsc, e]
      intro c hc
      have : c.key ∈ (mergeCandidates cs fs).map Candidate.key := List.mem_map_of_mem hc
      rw [e] at this
      rcases List.mem_append.1 this with h | h
      · exact hcomp _ h
      · obtain ⟨c', hc', e'⟩ := List.mem_map.1 (List.mem_of_mem_filter h)
        rw [← e']; exact (hP fs hp).2 c' hc'
    · rw [← hk, List.length_map]; omega

end

section
variable {sc : SpellChecker} {docs : List Doc} {query : Bytes} (hi : SpellIndex sc docs query) {oob : Int} {val : LMScore → ℝ}
  {K : Nat} {α : ℝ} (hα : GoodSimilarity sc query α) {r : Except Err (List Bytes)}

include hi hα in
/-- What `Predict` returns for a query with the words `seq` and the last word `word`, if the language model can be asked
for the continuations of `seq` (`spellScorer`, see C45): the considered words, highest score first, cut after `K + 1`. -/
theorem predict_result (hK : 0 < K) {seq : List Bytes} {word : Bytes} (ht : sc.tokenize query = seq ++ [word])
    {next : Option ScorerNext} (hn : spellScorer sc seq = .ok next) {score : Nat → ℝ}
    (hsc : ∀ d ∈ docs, lmScore val next d.id = .ok (score d.id))
    (hr : PredictReturns (realOps oob) val sc query K α r) :
    r = .ok (((byScore score (predictWords docs (sc.prefixGrams word) (sc.grams word) score α K)).take (K + 1)).map sc.dict) := by
  obtain ⟨G, LG, hoi⟩ := hi.index
  obtain ⟨L⟩ := hi.lawful
  obtain ⟨considered, rfl, ⟨h1, h2⟩ | ⟨h1, fs, rfl, h2⟩⟩ := predict_returns hi hsc hK ht hn
    (P := fun fs => fs = suggestAnswer cosineSim docs (sc.grams word) α K)
    (by
      rintro fs rfl
      exact ⟨similar_nodup hi _ _ _, fun c hc => similarWords_mem (List.mem_map_of_mem hc)⟩)
    (fun h => ⟨_, C29_suggest L LG hi.good hi.first hoi hi.sort (.of_short (hi.grams word ⟨_, ht⟩).2) (hi.grams word ⟨_, ht⟩).1 hα.pos
      hα.le hi.small le_rfl (.cosine (hα.bound word ⟨_, ht⟩)) hK h, rfl⟩) hr
  · rw [h2]; unfold predictWords; rw [if_neg (by omega)]
  · rw [h2]; unfold predictWords; rw [if_pos h1]; rfl

/-! ### The scores are those of the language model -/

/-- The language model of the spell checker was read from the count files of a corpus, with order at least 2; every word
has an id (unknown words have a special one). -/
structure SpellModel (sc : SpellChecker) (files : List (List (List Nat × Nat))) (id : Bytes → Nat) (start : Nat) : Prop where
  corpus : CorpusFiles files
  order : 2 ≤ files.length
  model : ∃ vs fin, readModel files = .ok vs ∧ sc.model = ⟨vs, files.length, start, fin⟩
  start32 : start < 2 ^ 32
  wordID : ∀ w, sc.wordID w = .ok (id w) ∧ id w < 2 ^ 32

/-- The relative frequency of the word `w` after the words `ctx`, if it ever followed them. -/
def followScore (files : List (List (List Nat × Nat))) (ctx : List Nat) (w : Nat) : LMScore :=
  if 0 < gramCount files (ctx ++ [w]) then .ratio 0 (gramCount files (ctx ++ [w])) (gramCount files ctx) else .unknown

/-- The words of the query before the last one that a model of order `n` takes into account: the last n - 1 of them; if there
are fewer, all of them after the start symbol. -/
def recentWords (n start : Nat) (ids : List Nat) : List Nat :=
  if ids.length + 1 < n then start :: ids else lastWords (n - 1) ids

theorem mapWords_ok {get : Bytes → Except Err Nat} {id : Bytes → Nat} (h : ∀ w, get w = .ok (id w)) (ws : List Bytes) :
    mapWords get ws = .ok (ws.map id) := by
  induction ws with
  | nil => rfl
  | cons w ws ih => simp [mapWords, h, ih]

theorem lmScore_of_scoresAfter {S : Type} {files : List (List (List Nat × Nat))} {ctx : List Nat} {r : Except Err (Option ScorerNext)}
    (h : ScoresAfter files ctx r) : ∃ next, r = .ok next ∧ ∀ w < 2 ^ 32, ∀ val : LMScore → S,
      lmScore val next w = .ok (val (followScore files ctx w)) := by
  rcases h with ⟨rfl, h⟩ | ⟨s, rfl, h⟩
  · refine ⟨none, rfl, fun w hw val => ?_⟩
    unfold followScore
    rw [h w hw]
    rfl
  · refine ⟨some s, rfl, fun w hw val => ?_⟩
    simp only [lmScore, h w hw]
    rfl

/-- The scorer for the words before the last one. -/
theorem spell_scores {S : Type} {sc : SpellChecker} {files : List (List (List Nat × Nat))} {id : Bytes → Nat} {start : Nat}
    (hm : SpellModel sc files id start) (seq : List Bytes) : ∃ next, spellScorer sc seq = .ok next ∧
      (seq = [] → next = none) ∧
      (seq ≠ [] → seq.length ≠ files.length → ∀ w < 2 ^ 32, ∀ val : LMScore → S,
        lmScore val next w = .ok (val (followScore files (recentWords files.length start (seq.map id)) w))) ∧
      (seq.length = files.length → ∀ w < 2 ^ 32, ∀ val : LMScore → S,
        lmScore val next w = .ok (val (followScore files (seq.map id).dropLast w))) := by
  obtain ⟨vs, fin, hvs, hmod⟩ := hm.model
  have hids : ∀ x ∈ seq.map id, x < 2 ^ 32 := by
    intro x hx
    obtain ⟨w, _, rfl⟩ := List.mem_map.1 hx
    exact (hm.wordID w).2
  unfold spellScorer
  rw [mapWords_ok (fun w => (hm.wordID w).1)]
  simp only [List.length_map]
  rcases List.eq_nil_or_concat seq with rfl | ⟨_, _, hs⟩
  · refine ⟨none, by simp, by simp, by simp, fun h => ?_⟩
    have := hm.order
    simp at h; omega
  · have hne : seq ≠ [] := by rw [hs]; simp
    have hpos : seq.length > 0 := List.length_pos_iff.2 hne
    rw [if_pos hpos, hmod]
    by_cases hl : seq.length = files.length
    · obtain ⟨vs', h1, h2⟩ := C45_equal_length_ignores_last hm.corpus hm.order
      rw [hvs] at h1; cases h1
      obtain ⟨next, h3, h4⟩ := lmScore_of_scoresAfter (h2 start fin (seq.map id) hids (by simpa using hl))
      exact ⟨next, h3, fun h => absurd h hne, fun _ h => absurd hl h, fun _ => h4⟩
    · obtain ⟨vs', h1, h2⟩ := C45_recent_words_partial hm.corpus hm.order
      rw [hvs] at h1; cases h1
      have hsa : ScoresAfter files (recentWords files.length start (seq.map id))
          (LangModel.next ⟨vs, files.length, start, fin⟩ (seq.map id)) := by
        unfold recentWords
        split
        · rename_i h
          exact (h2 start fin (seq.map id) hm.start32 hids).2 h
        · rename_i h
          exact (h2 start fin (seq.map id) hm.start32 hids).1 (by omega) (by simpa using hl)
      obtain ⟨next, h3, h4⟩ := lmScore_of_scoresAfter hsa
      exact ⟨next, h3, fun h => absurd h hne, fun _ _ => h4, fun h => absurd h hl⟩

variable {files : List (List (List Nat × Nat))} {id : Bytes → Nat} {start : Nat} (hm : SpellModel sc files id start)

include hi hm in
/-- For every query there are scores. -/
theorem spell_score_exists {S : Type} (val : LMScore → S) (seq : List Bytes) : ∃ (next : Option ScorerNext) (score : Nat → S), spellScorer sc seq = .ok next ∧
    ∀ d ∈ docs, lmScore val next d.id = .ok (score d.id) := by
  obtain ⟨next, h1, h2, h3, h4⟩ := spell_scores hm seq
  by_cases hs : seq = []
  · refine ⟨next, fun _ => val .unknown, h1, fun d _ => ?_⟩
    rw [h2 hs]; rfl
  · by_cases hl : seq.length = files.length
    · exact ⟨next, fun i => val (followScore files (seq.map id).dropLast i), h1,
        fun d hd => h4 hl d.id (hi.good.id32 d hd) val⟩
    · exact ⟨next, fun i => val (followScore files (recentWords files.length start (seq.map id)) i), h1,
        fun d hd => h3 hs hl d.id (hi.good.id32 d hd) val⟩

theorem predict_no_words {F : FloatOps ℝ} {K : Int} (ht : sc.tokenize query = []) (hr : PredictReturns F val sc query K α r) :
    r = .ok [] := by
  cases hr with
  | noTokens h => rfl
  | scorerErr h1 => rw [ht] at h1; simp at h1
  | autoErr h1 => rw [ht] at h1; simp at h1
  | enough h1 => rw [ht] at h1; simp at h1
  | fuzzyErr h1 => rw [ht] at h1; simp at h1
  | fuzzy h1 => rw [ht] at h1; simp at h1

include hi hα hm in
/-- **C50** (weaker bound) `Predict` returns at most `K + 1` words.

Missing for the full property (at most `K`): it is false, see `C50_one_more` and `C50_wrong`. -/
theorem C50_at_most_one_more_partial (hK : 0 < K) {ws : List Bytes}
    (hr : PredictReturns (realOps oob) val sc query K α (.ok ws)) : ws.length ≤ K + 1 := by
  rcases List.eq_nil_or_concat (sc.tokenize query) with ht | ⟨seq, word, ht⟩
  · have := predict_no_words ht hr
    cases this; simp
  · obtain ⟨next, score, hn, hsc⟩ := spell_score_exists hi hm val seq
    have := predict_result hi hα hK (by simpa using ht) hn hsc hr
    cases this
    simp

include hi hα hm in
/-- **C50** is false: if more than `K` words are considered, `K + 1` words are returned. -/
theorem C50_one_more (hK : 0 < K) {seq : List Bytes} {word : Bytes} (ht : sc.tokenize query = seq ++ [word]) {ws : List Bytes}
    (hr : PredictReturns (realOps oob) val sc query K α (.ok ws)) :
    ∃ (score : Nat → ℝ), ws.length = min (K + 1) (predictWords docs (sc.prefixGrams word) (sc.grams word) score α K).length ∧
      (∀ d ∈ docs, ∃ v, score d.id = val v) := by
  obtain ⟨next, score, hn, hsc⟩ := spell_score_exists hi hm val seq
  have := predict_result hi hα hK ht hn hsc hr
  cases this
  refine ⟨score, ?_, ?_⟩
  · simp [byScore, List.length_mergeSort]
  · intro d hd
    have h := hsc d hd
    unfold lmScore at h
    cases next with
    | none => simp only [Except.ok.injEq] at h; exact ⟨_, h.symm⟩
    | some s =>
      simp only at h
      cases hs : s.score d.id with
      | error e => rw [hs] at h; cases h
      | ok v => rw [hs] at h; simp only [Except.ok.injEq] at h; exact ⟨v, h.symm⟩

include hi hα hm in
/-- **C51** The returned words are the dictionary entries of pairwise different ids of indexed words. -/
theorem C51_ids (hK : 0 < K) {ws : List Bytes} (hr : PredictReturns (realOps oob) val sc query K α (.ok ws)) :
    ∃ ids : List Nat, ws = ids.map sc.dict ∧ ids.Nodup ∧ ∀ i ∈ ids, i ∈ docs.map Doc.id := by
  rcases List.eq_nil_or_concat (sc.tokenize query) with ht | ⟨seq, word, ht⟩
  · have := predict_no_words ht hr
    cases this
    exact ⟨[], rfl, by simp, by simp⟩
  · obtain ⟨next, score, hn, hsc⟩ := spell_score_exists hi hm val seq
    have := predict_result hi hα hK (by simpa using ht) hn hsc hr
    cases this
    have hp : (byScore score (predictWords docs (sc.prefixGrams word) (sc.grams word) score α K)).Perm _ := List.mergeSort_perm _ _
    refine ⟨_, rfl, (hp.nodup_iff.2 (predictWords_nodup hi _ _ _ _ _)).sublist (List.take_sublist _ _), ?_⟩
    intro i h
    exact predictWords_mem (hp.subset (List.mem_of_mem_take h))

include hi hα hm in
/-- **C51** If the dictionary has no word twice, no word is returned twice. -/
theorem C51_no_duplicates (hK : 0 < K) (hdict : ∀ a ∈ docs, ∀ b ∈ docs, sc.dict a.id = sc.dict b.id → a.id = b.id)
    {ws : List Bytes} (hr : PredictReturns (realOps oob) val sc query K α (.ok ws)) : ws.Nodup := by
  obtain ⟨ids, rfl, h1, h2⟩ := C51_ids hi hα hm hK hr
  refine List.Nodup.map_on ?_ h1
  intro x hx y hy e
  obtain ⟨a, ha, rfl⟩ := List.mem_map.1 (h2 x hx)
  obtain ⟨b, hb, rfl⟩ := List.mem_map.1 (h2 y hy)
  exact hdict a ha b hb e

/-- Highest score first. -/
def ScoreSorted (score : Nat → ℝ) (ids : List Nat) : Prop := ids.Pairwise fun i j => score j ≤ score i

/-- What `Predict` promises: `ws` are the entries of ids among those considered, highest score first, and no word that was
considered and not returned has a higher score than a returned one. -/
structure BestPredictions (dict : Nat → Bytes) (score : Nat → ℝ) (considered : List Nat) (ws : List Bytes) (ids : List Nat) :
    Prop where
  words : ws = ids.map dict
  sub : ids ⊆ considered
  sorted : ScoreSorted score ids
  best : ∀ i ∈ considered, i ∉ ids → ∀ j ∈ ids, score i ≤ score j

theorem byScore_sorted (score : Nat → ℝ) (l : List Nat) : ScoreSorted score (byScore score l) := by
  have h := List.pairwise_mergeSort (le := fun i j => decide (score j ≤ score i))
    (fun a b c h1 h2 => by simp only [decide_eq_true_eq] at *; exact h2.trans h1)
    (fun a b => by simpa using le_total (score b) (score a)) l
  exact h.imp fun h => by simpa using h

theorem best_predictions (dict : Nat → Bytes) (score : Nat → ℝ) (l : List Nat) (n : Nat) :
    BestPredictions dict score l (((byScore score l).take n).map dict) ((byScore score l).take n) := by
  have hs := byScore_sorted score l
  have hp : (byScore score l).Perm l := List.mergeSort_perm _ _
  refine ⟨rfl, fun i h => hp.subset (List.mem_of_mem_take h), hs.sublist (List.take_sublist _ _), ?_⟩
  intro i hi hn j hj
  have hi' : i ∈ (byScore score l).drop n := by
    have : i ∈ (byScore score l).take n ++ (byScore score l).drop n := by
      rw [List.take_append_drop]; exact hp.symm.subset hi
    exact (List.mem_append.1 this).resolve_left hn
  have h2 := hs
  rw [← List.take_append_drop n (byScore score l)] at h2
  exact (List.pairwise_append.1 h2).2.2 j hj i hi'

include hi hα hm in
/-- **C52** (partial) If at least one word precedes the last one, but not exactly as many as the order of the language
model: the words are ordered by the language model score after the most recent preceding words, best first.

Missing: for exactly as many preceding words as the order the property is false (`C52_wrong_context`), and without
preceding words the language model is not used (`C52_single_word`). -/
theorem C52_by_score_partial (hK : 0 < K) {seq : List Bytes} {word : Bytes} (ht : sc.tokenize query = seq ++ [word])
    (hne : seq ≠ []) (hlen : seq.length ≠ files.length) {ws : List Bytes}
    (hr : PredictReturns (realOps oob) val sc query K α (.ok ws)) :
    let score := fun w => val (followScore files (recentWords files.length start (seq.map id)) w)
    ∃ ids, BestPredictions sc.dict score (predictWords docs (sc.prefixGrams word) (sc.grams word) score α K) ws ids := by
  intro score
  obtain ⟨next, h1, _, h3, _⟩ := spell_scores hm seq
  have := predict_result hi hα hK ht h1 (score := score) (fun d hd => h3 hne hlen d.id (hi.good.id32 d hd) val) hr
  cases this
  exact ⟨_, best_predictions _ _ _ _⟩

include hi hα hm in
/-- **C52** is false if exactly as many words precede the last one as the order of the model: the scores are those after
the preceding words *without the last of them*. -/
theorem C52_wrong_context (hK : 0 < K) {seq : List Bytes} {word : Bytes} (ht : sc.tokenize query = seq ++ [word])
    (hlen : seq.length = files.length) {ws : List Bytes} (hr : PredictReturns (realOps oob) val sc query K α (.ok ws)) :
    let score := fun w => val (followScore files (seq.map id).dropLast w)
    ∃ ids, BestPredictions sc.dict score (predictWords docs (sc.prefixGrams word) (sc.grams word) score α K) ws ids ∧
      ids.length = min (K + 1) (predictWords docs (sc.prefixGrams word) (sc.grams word) score α K).length := by
  intro score
  obtain ⟨next, h1, _, _, h4⟩ := spell_scores hm seq
  have := predict_result hi hα hK ht h1 (score := score) (fun d hd => h4 hlen d.id (hi.good.id32 d hd) val) hr
  cases this
  exact ⟨_, best_predictions _ _ _ _, by simp [byScore, List.length_mergeSort]⟩

include hi hα in
/-- **C52** boundary: a query of one word: the language model is not used. The completions come first, in the order of their
ids, then the similar words, most similar first. -/
theorem C52_single_word (hK : 0 < K) {word : Bytes} (ht : sc.tokenize query = [word]) {ws : List Bytes}
    (hr : PredictReturns (realOps oob) val sc query K α (.ok ws)) :
    ws = ((predictWords docs (sc.prefixGrams word) (sc.grams word) (fun _ => 0) α K).take (K + 1)).map sc.dict ∧
    completions docs (sc.prefixGrams word) (fun _ => (0 : ℝ)) K = if sc.prefixGrams word = [] then [] else (containing docs (sc.prefixGrams word)).take K := by
  have hcomp : ∀ v : ℝ, completions docs (sc.prefixGrams word) (fun _ => v) K
      = if sc.prefixGrams word = [] then [] else (containing docs (sc.prefixGrams word)).take K := by
    intro v
    unfold completions
    split
    · rfl
    unfold best
    rw [List.mergeSort_of_pairwise, ← List.map_take, List.map_map]
    · conv_rhs => rw [← List.map_id ((containing docs (sc.prefixGrams word)).take K)]
      rfl
    · rw [List.pairwise_map]
      have : (containing docs (sc.prefixGrams word)).Pairwise (· < ·) := by
        rw [containing_eq, List.pairwise_map]
        exact hi.good.ids.filter _
      refine this.imp ?_
      intro a b hab
      simp [Candidate.betterEq, hab.le]
  have hpw : predictWords docs (sc.prefixGrams word) (sc.grams word) (fun _ => val .unknown) α K = predictWords docs (sc.prefixGrams word) (sc.grams word) (fun _ => 0) α K := by
    unfold predictWords
    rw [hcomp, hcomp]
  refine ⟨?_, hcomp 0⟩
  have := predict_result hi hα hK (seq := []) (by simpa using ht) (next := none) rfl (score := fun _ => val .unknown)
    (fun d _ => rfl) hr
  cases this
  have hb : ∀ l, byScore (fun _ => val .unknown) l = l := by
    intro l
    unfold byScore
    rw [List.mergeSort_of_pairwise]
    exact List.pairwise_of_forall (by simp)
  rw [hpw, hb]

/-! ### C65: every query is answered -/

theorem minY_cosine (hα : GoodSimilarity sc query α) (w : Bytes) (hw : (sc.grams w).length ≤ 0xFFFF) :
    (cosineMetric (realOps oob)).minY α (sc.grams w).length = ⌈α * α * (sc.grams w).length⌉ := by
  have h0 : 0 ≤ α * α * (sc.grams w).length := by have := hα.pos; positivity
  have h1 : α * α * (sc.grams w).length ≤ 0xFFFF := by
    have h2 : α * α ≤ 1 := by nlinarith [hα.pos, hα.le]
    have h3 : ((sc.grams w).length : ℝ) ≤ 0xFFFF := by exact_mod_cast hw
    nlinarith [hα.pos]
  have h4 : (0 : Int) ≤ ⌈α * α * (sc.grams w).length⌉ := Int.ceil_nonneg h0
  have h5 : ⌈α * α * (sc.grams w).length⌉ ≤ 0xFFFF := Int.ceil_le.2 (by exact_mod_cast h1)
  show toInt64 oob ⌈α * α * (((sc.grams w).length : Int) : ℝ)⌉ = _
  rw [Int.cast_natCast]
  unfold toInt64
  rw [if_pos]
  omega

include hi hα hm in
/-- **C65** (partial) If some word has at least α²·n n-grams, where n is the number of n-grams of the last word of the
query, `Predict` with `K ≥ 1` returns a list of words, whatever the schedule.

Missing: for `K = 0` and for longer last words the property is false, see `C65_zero_panics`, `C65_long_word_panics`
and `C65_long_word_blocks`. -/
theorem C65_answers_partial (hK : 0 < K)
    (hlong : ∀ seq word, sc.tokenize query = seq ++ [word] → ∃ d ∈ docs, α * α * (sc.grams word).length ≤ d.terms.length) :
    ¬ PredictPanics (realOps oob) val sc query K α ∧ ¬ PredictBlocks (realOps oob) val sc query K α ∧
    ¬ PredictRunsForever (realOps oob) val sc query K α ∧ (∃ ws, PredictReturns (realOps oob) val sc query K α (.ok ws)) ∧
    ∀ r, PredictReturns (realOps oob) val sc query K α r → ∃ ws, r = .ok ws := by
  obtain ⟨G, LG, hoi⟩ := hi.index
  obtain ⟨L⟩ := hi.lawful
  have hfuzzy : ∀ seq word, sc.tokenize query = seq ++ [word] →
      let c := suggestCall (realOps oob) (cosineMetric (realOps oob)) sc.ρ sc.sort sc.index (sc.grams word) α K
      ¬ SuggestPanics c ∧ ¬ SuggestBlocks c ∧ ∃ fs, SuggestReturns c (.ok fs) := by
    intro seq word ht c
    obtain ⟨h1, h2, _, r, h4⟩ := C30_terminates_partial L LG hi.good hi.first hoi hi.sort (.of_short (hi.grams word ⟨_, ht⟩).2) (hi.grams word ⟨_, ht⟩).1 (oob := oob)
      hα.pos hα.le hi.small le_rfl (.cosine (hα.bound word ⟨_, ht⟩)) hK (by
        obtain ⟨d, hd, hle⟩ := hlong seq word ht
        refine ⟨d, hd, ?_⟩
        rw [minY_cosine hα word (hi.grams word ⟨_, ht⟩).2]
        exact Int.ceil_le.2 (by exact_mod_cast hle))
    refine ⟨h1, h2, ?_⟩
    have := C29_suggest L LG hi.good hi.first hoi hi.sort (.of_short (hi.grams word ⟨_, ht⟩).2) (hi.grams word ⟨_, ht⟩).1 hα.pos hα.le hi.small le_rfl
      (.cosine (hα.bound word ⟨_, ht⟩)) hK h4
    rw [this] at h4
    exact ⟨_, h4⟩
  have hsame : ∀ {seq word seq' word'}, sc.tokenize query = seq ++ [word] → sc.tokenize query = seq' ++ [word'] →
      seq = seq' ∧ word = word' := by
    intro seq word seq' word' h h'
    rw [h] at h'
    have := List.append_inj' h' rfl
    simpa using this
  have hscore : ∀ {seq next}, spellScorer sc seq = .ok next → ∃ score : Nat → ℝ, ∀ d ∈ docs, lmScore val next d.id = .ok (score d.id) := by
    intro seq next h
    obtain ⟨next', score, hn, hsc⟩ := spell_score_exists hi hm val seq
    rw [hn] at h; cases h
    exact ⟨score, hsc⟩
  refine ⟨?_, ?_, ?_, ?_, ?_⟩
  · rintro (⟨h1, h2, h3⟩ | ⟨h1, h2, h3, h4, h5⟩)
    · obtain ⟨score, hsc⟩ := hscore h2
      exact (lm_terminates hi hsc hK _ ⟨_, h1⟩).1 h3
    · exact (hfuzzy _ _ h1).1 h5
  · rintro (⟨h1, h2, h3⟩ | ⟨h1, h2, h3, h4, h5⟩)
    · obtain ⟨score, hsc⟩ := hscore h2
      exact (lm_terminates hi hsc hK _ ⟨_, h1⟩).2.1 h3
    · exact (hfuzzy _ _ h1).2.1 h5
  · rintro (⟨h1, h2, h3⟩ | ⟨h1, h2, h3⟩)
    · exact ano_infinite_run _ h3
    · exact no_infinite_run _ h3
  · rcases List.eq_nil_or_concat (sc.tokenize query) with ht | ⟨seq, word, ht⟩
    · exact ⟨[], .noTokens ht⟩
    · have ht : sc.tokenize query = seq ++ [word] := by simpa using ht
      obtain ⟨next, score, hn, hsc⟩ := spell_score_exists hi hm val seq
      obtain ⟨_, _, cs, hcs⟩ := lm_terminates hi hsc hK word ⟨_, ht⟩
      have hfin : ∃ r, PredictReturns (realOps oob) val sc query K α r := by
        by_cases hl : (cs.length : Int) < K
        · obtain ⟨_, _, fs, hfs⟩ := hfuzzy _ _ ht
          exact ⟨_, .fuzzy ht hn hcs hl hfs⟩
        · exact ⟨_, .enough ht hn hcs (by omega)⟩
      obtain ⟨r, hr⟩ := hfin
      have := predict_result hi hα hK ht hn hsc hr
      rw [this] at hr
      exact ⟨_, hr⟩
  · intro r hr
    rcases List.eq_nil_or_concat (sc.tokenize query) with ht | ⟨seq, word, ht⟩
    · exact ⟨[], predict_no_words ht hr⟩
    · obtain ⟨next, score, hn, hsc⟩ := spell_score_exists hi hm val seq
      exact ⟨_, predict_result hi hα hK (by simpa using ht) hn hsc hr⟩

include hi hα hm in
/-- **C65** is false for long last words: if no word has that many n-grams, but one has only one less, and there are fewer
than `K` completions, `Predict` blocks for ever. -/
theorem C65_long_word_blocks (hK : 0 < K) {seq : List Bytes} {word : Bytes} (ht : sc.tokenize query = seq ++ [word])
    (hfew : (containing docs (sc.prefixGrams word)).length < K) {m : Nat} (hle : ∀ d ∈ docs, d.terms.length ≤ m) (hmax : ∃ d ∈ docs, d.terms.length = m)
    (hlong : ⌈α * α * (sc.grams word).length⌉ = m + 1) : PredictBlocks (realOps oob) val sc query K α := by
  obtain ⟨G, LG, hoi⟩ := hi.index
  obtain ⟨L⟩ := hi.lawful
  have h2 : α * α ≤ 1 := by nlinarith [hα.pos, hα.le]
  have h3 : (0 : ℝ) ≤ (sc.grams word).length := by positivity
  have hqm : m + 1 ≤ (sc.grams word).length := by
    have : ⌈α * α * (sc.grams word).length⌉ ≤ ((sc.grams word).length : Int) := by
      rw [Int.ceil_le, Int.cast_natCast]
      nlinarith
    omega
  have hq : sc.grams word ≠ [] := by
    intro h; rw [h] at hqm; simp at hqm
  have hmin := minY_cosine (oob := oob) hα word (hi.grams word ⟨_, ht⟩).2
  have hfacts := (RealMetric.cosine (oob := oob) (n := 0) (hα.bound word ⟨_, ht⟩)).facts hα.pos hα.le
    (by omega) (by have := (hi.grams word ⟨_, ht⟩).2; omega)
  obtain ⟨next, score, hn, hsc⟩ := spell_score_exists hi hm val seq
  obtain ⟨_, _, cs, hcs⟩ := lm_terminates hi hsc hK word ⟨_, ht⟩
  refine .fuzzy ht hn hcs (by exact_mod_cast lm_few hi hsc ⟨_, ht⟩ hK hfew hcs) ?_
  have hbmin : (cosineMetric (realOps oob)).minY α (sc.grams word).length = m + 1 := by rw [hmin]; exact hlong
  exact C30_blocks L LG hi.good hi.first hoi (K := K) (realOps oob) hq hle hmax hbmin
    (by have := hfacts.minY_maxY; omega) (by have := hfacts.minY_le; omega)

include hi hα hm in
/-- **C65** is false for longer last words: if α²·n exceeds the number of n-grams of every word by more than one and
there are fewer than `K` completions, `Predict` panics. -/
theorem C65_long_word_panics (hK : 0 < K) {seq : List Bytes} {word : Bytes} (ht : sc.tokenize query = seq ++ [word])
    (hfew : (containing docs (sc.prefixGrams word)).length < K) (hne : docs ≠ []) (hlong : ∀ d ∈ docs, (d.terms.length : ℝ) + 1 < α * α * (sc.grams word).length) :
    PredictPanics (realOps oob) val sc query K α := by
  obtain ⟨G, LG, hoi⟩ := hi.index
  obtain ⟨L⟩ := hi.lawful
  have h2 : α * α ≤ 1 := by nlinarith [hα.pos, hα.le]
  have h3 : (0 : ℝ) ≤ (sc.grams word).length := by positivity
  have hlt : ∀ d ∈ docs, d.terms.length < (sc.grams word).length := by
    intro d hd
    have := hlong d hd
    have h4 : (d.terms.length : ℝ) < (sc.grams word).length := by nlinarith
    exact_mod_cast h4
  have hq : sc.grams word ≠ [] := by
    obtain ⟨d, hd⟩ := List.exists_mem_of_ne_nil _ hne
    intro h
    have := hlt d hd
    rw [h] at this; simp at this
  have hmin := minY_cosine (oob := oob) hα word (hi.grams word ⟨_, ht⟩).2
  obtain ⟨next, score, hn, hsc⟩ := spell_score_exists hi hm val seq
  obtain ⟨_, _, cs, hcs⟩ := lm_terminates hi hsc hK word ⟨_, ht⟩
  refine .fuzzy ht hn hcs (by exact_mod_cast lm_few hi hsc ⟨_, ht⟩ hK hfew hcs) ?_
  refine C30_panics L LG hi.good hi.first hoi (K := K) (realOps oob) hq ?_ hne
  intro d hd
  rw [hmin]
  exact Int.lt_ceil.2 (by push_cast; exact hlong d hd)

include hi hm in
/-- **C65** is false for `topK = 0`: if a word contains all n-grams of the last word of the query, a goroutine of
`Predict` panics under some schedule, and `Predict` returns under none. -/
theorem C65_zero_panics {F : FloatOps ℝ} {seq : List Bytes} {word : Bytes} (ht : sc.tokenize query = seq ++ [word])
    (hw : sc.prefixGrams word ≠ []) (hc : containing docs (sc.prefixGrams word) ≠ []) :
    PredictPanics F val sc query 0 α ∧ ∀ r, ¬ PredictReturns F val sc query 0 α r := by
  obtain ⟨G, LG, hoi⟩ := hi.index
  obtain ⟨L⟩ := hi.lawful
  obtain ⟨next, score, hn, hsc⟩ := spell_score_exists hi hm val seq
  have hseg := segmentsOk (κ := TopKQueue ℝ) L LG hi.good hi.first hoi hi.sort (.of_short (hi.prefixGrams word ⟨_, ht⟩).2)
  have hdo := docsOk_of_good hi.good (hi.prefixGrams word ⟨_, ht⟩).1 (by have := (hi.prefixGrams word ⟨_, ht⟩).2; omega)
  have hlen : 1 ≤ (sc.prefixGrams word).length := List.length_pos_iff.2 hw
  obtain ⟨i, hin⟩ := List.exists_mem_of_ne_nil _ hc
  rw [containing_eq] at hin
  obtain ⟨d, hd, rfl⟩ := List.mem_map.1 hin
  obtain ⟨hd, hsh⟩ := List.mem_filter.1 hd
  simp only [decide_eq_true_eq] at hsh
  have htl : (sc.prefixGrams word).length ≤ d.terms.length := hsh.trans (shared_le_terms (hi.prefixGrams word ⟨_, ht⟩).1)
  have hdne : d.terms ≠ [] := List.length_pos_iff.1 (by omega)
  obtain ⟨c, hcdef⟩ : ∃ c, c = lmAutocompleteCall sc.ρ sc.sort sc.index (sc.prefixGrams word) (lmScore val next) 0 := ⟨_, rfl⟩
  have hix : c.indices = builtIndices sc.ρ sc.sort sc.index (sc.prefixGrams word) := by rw [hcdef]; rfl
  have hget : ∃ f, c.indices.get d.terms.length = some f := by
    rw [hix]
    cases hg : (builtIndices (κ := TopKQueue ℝ) sc.ρ sc.sort sc.index (sc.prefixGrams word)).get d.terms.length with
    | none => exact absurd (hseg.none _ hg d hd rfl) hdne
    | some f => exact ⟨f, rfl⟩
  obtain ⟨f, hf⟩ := hget
  have hb : d.terms.length ∈ sizesA c := by
    have := hseg.card d hd hdne
    have e : c.termsLen = (sc.prefixGrams word).length := by rw [hcdef]; rfl
    unfold sizesA
    rw [e, hix]
    rw [List.mem_drop_iff_getElem]
    refine ⟨d.terms.length - (sc.prefixGrams word).length, by simp; omega, by simp; omega⟩
  have hsearch : ∀ env, ∃ k, f env c.collect c.termsLen c.create = (k, some .panicIndex) := by
    intro env
    rw [hix] at hf
    have e1 : c.collect = lmCollect (lmScore val next) := by rw [hcdef]; rfl
    have e2 : c.termsLen = (sc.prefixGrams word).length := by rw [hcdef]; rfl
    have e3 : c.create = emptyQueue 0 := by rw [hcdef]; rfl
    rw [e1, e2, e3]
    obtain ⟨out, o1, o2, o3⟩ := hseg.some _ f hf env (lmCollect (lmScore val next)) _ hlen (emptyQueue 0)
    rw [o3]
    cases out with
    | nil =>
      have := (o2 d.id (shared (sc.prefixGrams word) d)).2 ⟨d, hd, rfl, rfl, rfl, hsh⟩
      simp at this
    | cons x out =>
      obtain ⟨d', hd', h1, h2, h3, h4⟩ := (o2 x.1 x.2).1 (by simp)
      have hp : x.1 < 2 ^ 32 := by rw [← h1]; exact hi.good.id32 d' hd'
      have ho : x.2 < 2 ^ 32 := by
        rw [h3]
        have := shared_le_query (sc.prefixGrams word) d'
        have := (hi.prefixGrams word ⟨_, ht⟩).2
        omega
      refine ⟨emptyQueue 0, ?_⟩
      have hs : lmScore val next x.1 = .ok (score x.1) := by rw [← h1]; exact hsc d' hd'
      simp only [packed, List.map_cons, feed, lmCollect, MergeCandidate.position_new hp ho, hs]
      simp [TopKQueue.add, TopKQueue.canTakeWithScore, TopKQueue.isFull, TopKQueue.top, emptyQueue, bind, Except.bind]
  obtain ⟨hpan, hnr⟩ := apanics hb hf (e := .panicIndex) rfl hsearch (by rw [hcdef]; simp [lmAutocompleteCall])
  rw [hcdef] at hpan hnr
  refine ⟨.auto ht hn hpan, ?_⟩
  have same : ∀ {s' w'}, sc.tokenize query = s' ++ [w'] → seq = s' ∧ word = w' := by
    intro s' w' h
    rw [ht] at h
    have := List.append_inj' h rfl
    simpa using this
  intro r hr
  cases hr with
  | noTokens h => rw [ht] at h; simp at h
  | scorerErr h1 h2 =>
    obtain ⟨rfl, rfl⟩ := same h1
    rw [hn] at h2; cases h2
  | autoErr h1 h2 h3 =>
    obtain ⟨rfl, rfl⟩ := same h1
    rw [hn] at h2; cases h2
    exact hnr _ h3
  | enough h1 h2 h3 h4 =>
    obtain ⟨rfl, rfl⟩ := same h1
    rw [hn] at h2; cases h2
    exact hnr _ h3
  | fuzzyErr h1 h2 h3 h4 h5 =>
    obtain ⟨rfl, rfl⟩ := same h1
    rw [hn] at h2; cases h2
    exact hnr _ h3
  | fuzzy h1 h2 h3 h4 h5 =>
    obtain ⟨rfl, rfl⟩ := same h1
    rw [hn] at h2; cases h2
    exact hnr _ h3

end

end Verif.Props
