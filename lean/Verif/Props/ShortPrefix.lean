import Verif.Props.CompleteFate
/-
C33, C68, C94: a prefix shorter than the n-grams.
-/
namespace Verif.Props
open Verif Spec Verif.WordSearch Verif.Serve Verif.Wire TopKQueue

theorem firstK_no_tokens {ρ : Roaring} {msort : List (PList ρ) → List (PList ρ)} {oi : OpenIndex} {K : Nat} :
    CollectorOk (autocompleteCall ρ msort oi [] K) (fun _ => 0) (fun _ k => k = []) (fun g C => g.len = 0 ∧ C = 0) K where
  skip _ := rfl
  init {g} h := by
    have h : TopKQueue.new (K : Int) = .ok g := h
    unfold TopKQueue.new at h
    rw [if_neg (by omega)] at h
    cases h
    exact ⟨rfl, rfl⟩
  search {b f} hf env := by
    refine ⟨_, ?_, rfl⟩
    simp only [autocompleteCall, builtIndices] at hf
    rw [if_pos (by omega)] at hf
    obtain ⟨tab, _, rfl⟩ := Option.map_eq_some_iff.1 hf
    simp [search, filterTerms, openAll, cpMerge, optimizerMerge, autocompleteCall]
  commit {g C} h b k hk := by
    subst hk
    exact ⟨g, by simp [autocompleteCall, firstKMerge, addAll], by simpa using h⟩
  final {g C} h := by
    have : C = [] := by simpa using h.2
    subst this
    simp [getCandidates, h.1, best]

/-- **C33** boundary: a query without tokens always returns (the empty list, C33_no_tokens), whatever the index is, also a damaged one. -/
theorem C33_no_tokens_answers {ρ : Roaring} {msort : List (PList ρ) → List (PList ρ)} {oi : OpenIndex} {limit : Nat} :
    let c := autocompleteCall ρ msort oi [] limit
    ¬ AutocompletePanics c ∧ ¬ AutocompleteBlocks c ∧ (∀ f : Nat → AState (List MergeCandidate) ℚ, ¬ ∀ i, c.Step (f i) (f (i + 1))) ∧
      AutocompleteReturns c (.ok []) := by
  intro c
  have : Nonempty (Nat → SkipList) := ⟨fun _ => ⟨⟨[], 0⟩, 0, 0, 0, 0, 0, 0, false⟩⟩
  obtain ⟨h1, h2, h3, r, h4⟩ := aterminates (c := c) firstK_no_tokens (by
    unfold AConf.start
    obtain ⟨q0, e0⟩ := TopKQueue.new_ok (S := ℚ) limit
    have : TopKQueue.new c.limit = .ok q0 := e0
    rw [this]
    exact ⟨_, rfl⟩)
  have := C33_no_tokens h4
  subst this
  exact ⟨h1, h2, h3, h4⟩

/-- A prefix of fewer bytes than an n-gram has characters has no tokens. -/
theorem autocompleteTokens_short {lower : Nat → Nat} {sort : List Alphabet → List Alphabet} {d : TokenConf} {c : WordConf}
    (h : Describes lower sort d c) {w : List Char} (hlen : (utf8 (c.prefixText w)).length < c.n) :
    autocompleteTokenizer lower sort d (utf8 w) = .ok [] := by
  unfold autocompleteTokenizer wrapTokenize filterTokenize
  rw [h.start, List.append_nil, ← utf8_append, toLowerText_utf8 c.lower lower h.lower, trimSpaces_utf8]
  show Except.map _ (nGramTokenize d.nGramSize (utf8 (c.prefixText w))) = _
  rw [h.size, nGramTokenize_utf8 h.pos h.le, if_pos hlen]
  rfl

section
variable {lower : Nat → Nat} {sort : List Alphabet → List Alphabet} {d : TokenConf} {c : WordConf} (hdc : Describes lower sort d c)
  {ρ : Roaring} {msort : List (PList ρ) → List (PList ρ)} {query : List Char}

include hdc in
/-- **C68** boundary: a prefix that, together with the configured prefix of words, has fewer bytes than an n-gram has characters, completes
to nothing, whatever the dictionary and the index are. -/
theorem C68_short_prefix (hlen : (utf8 (c.prefixText query)).length < c.n) {oi : OpenIndex} {dict : Dict} {limit : Nat}
    {r : Except Err (List (ℚ × Bytes))} :
    ServiceAutocomplete ρ msort (autocompleteTokenizer lower sort d) oi dict (utf8 query) limit r ↔ r = .ok [] := by
  have htok := autocompleteTokens_short hdc hlen
  constructor
  · rintro (⟨e, h, _⟩ | ⟨q, cs, h, hcs, rfl⟩)
    · rw [htok] at h; cases h
    · rw [htok] at h
      cases h
      have := C33_no_tokens hcs
      subst this
      rfl
  · rintro rfl
    exact .inr ⟨_, _, htok, C33_no_tokens_answers.2.2.2, rfl⟩

variable {dict : Bytes} {dict' query' raw : Bytes} {kvs : List (Bytes × Bytes)} (hd : PctEncoded false dict dict') (hsd : PathSegment dict)
  (hq : PctEncoded false (utf8 query) query') (hsq : PathSegment (utf8 query)) (hform : FormEncoded kvs raw)
  {pf : Bytes → Except Err F64} {num : ℚ → Bytes} {F : FloatOps ℚ} {w : World} {oi : OpenIndex} {words : Dict} {tok : Tokenizer}
  (hpub : w.published dict = some ⟨oi, words, tok, autocompleteTokenizer lower sort d⟩)

include hdc hd hsd hq hsq hform hpub in
/-- **C94** A request for completions of such a short prefix is always answered, with the empty JSON list. -/
theorem C94_complete_short (hlen : (utf8 (c.prefixText query)).length < c.n) {limit : Nat}
    (hK : (fieldValue kvs "topK".toUTF8.toList = [] ∧ limit = 5) ∨
      (IsDecimal (fieldValue kvs "topK".toUTF8.toList) limit ∧ limit < 2 ^ 63)) (f : Fate) :
    RequestFate F ρ msort pf num w .get (searchTarget "autocomplete" dict' query' raw) f ↔ f = .answered (.json "[]".toUTF8.toList) := by
  have hk : autocompleteArgs (formValue raw) = .ok limit := by
    unfold autocompleteArgs
    rw [C88_form hform]
    refine C55_topK.2 ?_
    rcases hK with ⟨h, rfl⟩ | ⟨h, h2⟩
    · exact .inl ⟨h, rfl⟩
    · exact .inr ⟨h, by omega, by exact_mod_cast h2⟩
  obtain ⟨path, p1, p2⟩ := (C88_request hd hsd hq hsq (form_plain hform)).2
  have hj : jsonItems num [] = "[]".toUTF8.toList := by
    have : "[]".toUTF8.toList = [91, 93] := by decide +kernel
    rw [this]
    rfl
  have htok := autocompleteTokens_short hdc hlen
  obtain ⟨t1, t2, _, _⟩ := C33_no_tokens_answers (ρ := ρ) (msort := msort) (oi := oi) (limit := limit)
  constructor
  · intro hf
    cases hf with
    | answered ha =>
      cases (answered_complete hd hsd hq hsq hform).1 ha with
      | bad g => rw [hk] at g; cases g
      | unknown _ g => rw [hpub] at g; cases g
      | failed g1 g3 g4 =>
        rw [hk] at g1; cases g1
        rw [hpub] at g3; cases g3
        cases (C68_short_prefix hdc hlen).1 g4
      | ok g1 g3 g4 =>
        rw [hk] at g1; cases g1
        rw [hpub] at g3; cases g3
        cases (C68_short_prefix hdc hlen).1 g4
        rw [← hj]
    | reindexed g1 g2 | suggestToken g1 g2 | suggest g1 g2 | suggestNaN g1 g2 | suggestEndless g1 g2 =>
      rw [p1] at g1; cases g1
      rw [p2] at g2; cases g2
    | completeToken g1 g2 g3 g4 g5 =>
      rw [p1] at g1; cases g1
      rw [p2] at g2; cases g2
      rw [hpub] at g4; cases g4
      dsimp only at g5
      rw [htok] at g5; cases g5
    | complete g1 g2 g3 g4 g5 g6 =>
      rw [p1] at g1; cases g1
      rw [p2] at g2; cases g2
      rw [hk] at g3; cases g3
      rw [hpub] at g4; cases g4
      dsimp only at g5
      rw [htok] at g5; cases g5
      cases g6 with
      | own h => exact absurd (.inl ⟨_, h⟩) t1
      | blocks h => exact absurd h t2
      | worker hr hp => exact absurd (.inr ⟨_, hr, hp⟩) t1
  · rintro rfl
    rw [← hj]
    have := (answered_complete hd hsd hq hsq hform (ρ := ρ) (msort := msort) (pf := pf) (F := F) (num := num) (names := w.names)).2 (.ok hk hpub ((C68_short_prefix hdc hlen).2 rfl))
    exact .answered this

end

/-- A word of fewer bytes than an n-gram has characters has no tokens. -/
theorem suggestTokens_short {lower : Nat → Nat} {sort : List Alphabet → List Alphabet} {d : TokenConf} {c : WordConf}
    (h : Describes lower sort d c) {w : List Char} (hlen : (utf8 (c.wordText w)).length < c.n) :
    suggestTokenizer lower sort d (utf8 w) = .ok [] := by
  unfold suggestTokenizer wrapTokenize filterTokenize
  rw [h.start, h.fin, ← utf8_append, ← utf8_append, toLowerText_utf8 c.lower lower h.lower, trimSpaces_utf8]
  show Except.map _ (nGramTokenize d.nGramSize (utf8 (c.wordText w))) = _
  rw [h.size, nGramTokenize_utf8 h.pos h.le, if_pos hlen]
  rfl

section
variable {lower : Nat → Nat} {sort : List Alphabet → List Alphabet} {d : TokenConf} {c : WordConf} (hdc : Describes lower sort d c)
  {ρ : Roaring} {msort : List (PList ρ) → List (PList ρ)} {query : List Char}

include hdc in
/-- **C67** boundary: a query that, wrapped, has fewer bytes than an n-gram has characters is similar to nothing, whatever the dictionary,
the index, the metric and the similarity are. -/
theorem C67_short_query (hlen : (utf8 (c.wordText query)).length < c.n) {F : FloatOps ℚ} {M : Metric ℚ} {oi : OpenIndex} {dict : Dict}
    {α : ℚ} {K : Int} {r : Except Err (List (ℚ × Bytes))} :
    ServiceSuggest F M ρ msort (suggestTokenizer lower sort d) oi dict (utf8 query) α K r ↔ r = .ok [] := by
  have htok := suggestTokens_short hdc hlen
  constructor
  · rintro (⟨e, h, _⟩ | ⟨q, cs, h, hcs, rfl⟩)
    · rw [htok] at h; cases h
    · rw [htok] at h
      cases h
      cases hcs with
      | empty _ => rfl
      | run h0 => exact absurd rfl h0
  · rintro rfl
    exact .inr ⟨_, _, htok, .empty rfl, rfl⟩

variable {dict : Bytes} {dict' query' raw : Bytes} {kvs : List (Bytes × Bytes)} (hd : PctEncoded false dict dict') (hsd : PathSegment dict)
  (hq : PctEncoded false (utf8 query) query') (hsq : PathSegment (utf8 query)) (hform : FormEncoded kvs raw)
  {pf : Bytes → Except Err F64} {num : ℚ → Bytes} {F : FloatOps ℚ} {w : World} {oi : OpenIndex} {words : Dict} {tok : Tokenizer}
  (hpub : w.published dict = some ⟨oi, words, suggestTokenizer lower sort d, tok⟩)

include hdc hd hsd hq hsq hform hpub in
/-- **C94** A request for the words similar to such a short query is always answered, with the empty JSON list. -/
theorem C94_suggest_short (hlen : (utf8 (c.wordText query)).length < c.n)
    {m : MetricName} (hm : metricOf (fieldValue kvs "metric".toUTF8.toList) = some m) {K : Nat}
    (hK : (fieldValue kvs "topK".toUTF8.toList = [] ∧ K = 5) ∨
      (IsDecimal (fieldValue kvs "topK".toUTF8.toList) K ∧ 1 ≤ K ∧ K < 2 ^ 63)) {α : ℚ}
    (hα : (fieldValue kvs "similarity".toUTF8.toList = [] ∧ α = 1 / 2) ∨
      (fieldValue kvs "similarity".toUTF8.toList ≠ [] ∧ pf (fieldValue kvs "similarity".toUTF8.toList) = .ok (.num α)))
    (h0 : 0 < α) (h1 : α ≤ 1) (f : Fate) :
    RequestFate F ρ msort pf num w .get (searchTarget "suggest" dict' query' raw) f ↔ f = .answered (.json "[]".toUTF8.toList) := by
  have hc := handler_config hform hK hα h0 h1 hm (goString (utf8 query))
  obtain ⟨path, p1, p2⟩ := (C88_request hd hsd hq hsq (form_plain hform)).1
  have hj : jsonItems num [] = "[]".toUTF8.toList := by
    have : "[]".toUTF8.toList = [91, 93] := by decide +kernel
    rw [this]
    rfl
  have htok := suggestTokens_short hdc hlen
  constructor
  · intro hf
    cases hf with
    | answered ha =>
      cases (answered_suggest hd hsd hq hsq hform).1 ha with
      | bad g => rw [hc] at g; cases g
      | unknown _ g => rw [hpub] at g; cases g
      | failedNaN g1 g2 | okNaN g1 g2 =>
        rw [hc] at g1; cases g1
        cases g2
      | failed g1 g2 g3 g4 =>
        rw [hpub] at g3; cases g3
        cases (C67_short_query hdc hlen).1 g4
      | ok g1 g2 g3 g4 =>
        rw [hpub] at g3; cases g3
        cases (C67_short_query hdc hlen).1 g4
        rw [← hj]
    | reindexed g1 g2 | completeToken g1 g2 | complete g1 g2 =>
      rw [p1] at g1; cases g1
      rw [p2] at g2; cases g2
    | suggestToken g1 g2 g3 g4 g5 =>
      rw [p1] at g1; cases g1
      rw [p2] at g2; cases g2
      rw [hpub] at g4; cases g4
      dsimp only at g5
      rw [htok] at g5; cases g5
    | suggest g1 g2 g3 g4 g5 g6 g7 =>
      rw [p1] at g1; cases g1
      rw [p2] at g2; cases g2
      rw [hpub] at g5; cases g5
      dsimp only at g6
      rw [htok] at g6; cases g6
      cases g7 with
      | own h => exact absurd rfl h
      | blocks h => exact absurd rfl h.1
      | worker h => exact absurd rfl h
    | suggestNaN g1 g2 g3 g4 | suggestEndless g1 g2 g3 g4 =>
      rw [p1] at g1; cases g1
      rw [p2] at g2; cases g2
      rw [hc] at g3; cases g3
      cases g4
  · rintro rfl
    rw [← hj]
    have := (answered_suggest hd hsd hq hsq hform (ρ := ρ) (msort := msort) (pf := pf) (F := F) (num := num) (names := w.names)).2
      (.ok hc rfl hpub ((C67_short_query hdc hlen).2 rfl))
    exact .answered this

end

/-- **C94** The dictionary is "apple", "Apply", "maple", with trigrams: "GET /autocomplete/fruit/A/" is answered with "[]", although two
words start with "a"; nothing else can happen to it. -/
theorem C94_complete_short_example : ∃ (G : Gob) (_ : G.Lawful) (w : World), WellBuilt toyRoaring G 2 w ∧
    ∀ (pf : Bytes → Except Err F64) (num : ℚ → Bytes) (f : Fate),
      RequestFate (f64Ops 0) toyRoaring id pf num w .get (utf8 "/autocomplete/fruit/A/?topK=9".toList) f ↔
        f = .answered (.json "[]".toUTF8.toList) := by
  obtain ⟨G, LG, oi, h⟩ := tiny_index
  obtain ⟨w, hwd⟩ : ∃ w : World, w = ⟨fun _ => some ⟨oi, ramDict (tinyWords.map utf8), suggestTokenizer asciiLower id tinyConf,
    autocompleteTokenizer asciiLower id tinyConf⟩, [utf8 "fruit".toList]⟩ := ⟨_, rfl⟩
  have hw : WellBuilt toyRoaring G 2 w := by
    intro dict p hp
    rw [hwd] at hp
    cases hp
    exact ⟨asciiLower, id, tinyConf, wordDocs tinySpec tinyWords, by decide, by decide, by decide +kernel, rfl, rfl,
      wordDocs_good (by decide) (by decide +kernel), wordDocs_first (by decide +kernel), wordIndex_indexOf tiny_describes tiny_faithful h⟩
  have hform : FormEncoded [(utf8 "topK".toList, utf8 "9".toList)] (utf8 "topK=9".toList) := by
    have l : ∀ s : String, (∀ c ∈ utf8 s.toList, Unreserved c) → PctEncoded true (utf8 s.toList) (utf8 s.toList) := fun s h => enc_literal h
    have h := FormEncoded.last (l "topK" (by unfold Unreserved; decide +kernel)) (l "9" (by unfold Unreserved; decide +kernel))
    have e : utf8 "topK=9".toList = utf8 "topK".toList ++ 61 :: utf8 "9".toList := by decide +kernel
    rw [e]
    exact h
  refine ⟨G, LG, w, hw, fun pf num f => ?_⟩
  have e : utf8 "/autocomplete/fruit/A/?topK=9".toList =
      searchTarget "autocomplete" (utf8 "fruit".toList) (utf8 "A".toList) (utf8 "topK=9".toList) := by decide +kernel
  rw [e]
  exact C94_complete_short tiny_describes (query := "A".toList) (dict := utf8 "fruit".toList) (enc_literal (by unfold Unreserved; decide +kernel))
    (by unfold PathSegment; decide +kernel) (enc_literal (by unfold Unreserved; decide +kernel)) (by unfold PathSegment; decide +kernel)
    hform (by rw [hwd]) (by decide +kernel) (limit := 9) (.inr ⟨by
      have e : fieldValue [(utf8 "topK".toList, utf8 "9".toList)] "topK".toUTF8.toList = [57] := by decide +kernel
      rw [e]; exact .inl ⟨by unfold IsDigits; decide, by decide⟩, by decide⟩) f

/-- **C94** With 4-grams and any dictionary: "GET /suggest/fruit/a/?metric=Jaccard" is answered with "[]", although "a" may be a word. -/
theorem C94_suggest_short_example : Describes asciiLower id { tinyConf with nGramSize := 4 } { tinySpec with n := 4 } ∧
    ∀ (ρ : Roaring) (msort : List (PList ρ) → List (PList ρ)) (pf : Bytes → Except Err F64) (num : ℚ → Bytes) (w : World) (oi : OpenIndex)
      (words : Dict) (tok : Tokenizer),
      w.published (utf8 "fruit".toList) = some ⟨oi, words, suggestTokenizer asciiLower id { tinyConf with nGramSize := 4 }, tok⟩ → ∀ f : Fate,
      RequestFate (f64Ops 0) ρ msort pf num w .get (utf8 "/suggest/fruit/a/?metric=Jaccard".toList) f ↔
        f = .answered (.json "[]".toUTF8.toList) := by
  have hdc : Describes asciiLower id { tinyConf with nGramSize := 4 } { tinySpec with n := 4 } :=
    ⟨rfl, rfl, rfl, rfl, tiny_describes.letter, tiny_describes.lower, by decide, by decide⟩
  refine ⟨hdc, fun ρ msort pf num w oi words tok hpub f => ?_⟩
  have hform : FormEncoded [(utf8 "metric".toList, utf8 "Jaccard".toList)] (utf8 "metric=Jaccard".toList) := by
    have l : ∀ s : String, (∀ c ∈ utf8 s.toList, Unreserved c) → PctEncoded true (utf8 s.toList) (utf8 s.toList) := fun s h => enc_literal h
    have h := FormEncoded.last (l "metric" (by unfold Unreserved; decide +kernel)) (l "Jaccard" (by unfold Unreserved; decide +kernel))
    have e : utf8 "metric=Jaccard".toList = utf8 "metric".toList ++ 61 :: utf8 "Jaccard".toList := by decide +kernel
    rw [e]
    exact h
  have e : utf8 "/suggest/fruit/a/?metric=Jaccard".toList =
      searchTarget "suggest" (utf8 "fruit".toList) (utf8 "a".toList) (utf8 "metric=Jaccard".toList) := by decide +kernel
  rw [e]
  exact C94_suggest_short hdc (query := "a".toList) (dict := utf8 "fruit".toList) (enc_literal (by unfold Unreserved; decide +kernel))
    (by unfold PathSegment; decide +kernel) (enc_literal (by unfold Unreserved; decide +kernel)) (by unfold PathSegment; decide +kernel)
    hform hpub (by decide +kernel) (m := .jaccard) (by decide +kernel) (K := 5) (.inl ⟨by decide +kernel, rfl⟩) (α := 1 / 2)
    (.inl ⟨by decide +kernel, rfl⟩) (by norm_num) (by norm_num) f

end Verif.Props
