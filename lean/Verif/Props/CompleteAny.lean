import Verif.Props.ShortPrefix
import Verif.Spec.Completions
/-
C68, C94: a prefix with fewer characters than an n-gram, but at least as many bytes.
-/
namespace Verif.Props
open Verif Spec Verif.WordSearch Verif.Serve Verif.Wire

section
variable {ρ : Roaring} (L : ρ.Lawful) {G : Gob} (LG : G.Lawful)
  {lower : Nat → Nat} {sort : List Alphabet → List Alphabet} {d : TokenConf} {c : WordConf} (hdc : Describes lower sort d c)
  {words : List (List Char)} (hwords : words.length < 2 ^ 32) (hfaith : ∀ w ∈ words, c.Faithful (c.wordText w))
  (hfirst : ∀ w, words.head? = some w → c.grams (c.wordText w) ≠ [])
  (hn : ∀ w ∈ words, (c.grams (c.wordText w)).length ≤ 65535)
  {oi : OpenIndex} (hoi : WordIndex ρ G lower sort d words oi)
  {msort : List (PList ρ) → List (PList ρ)} (hs : ∀ r, (msort r).Perm r) {query : List Char}

include L LG hdc hwords hfaith hfirst hn hoi hs in
/-- **C68** The call is always answered, for a prefix whose n-grams are still different after the replacement. -/
theorem C68_faithful_answers (hqf : c.Faithful (c.prefixText query)) (hq : (c.grams (c.prefixText query)).length ≤ 65535)
    (hq0 : c.grams (c.prefixText query) ≠ []) (limit : Nat) :
    ∃ q, autocompleteTokenizer lower sort d (utf8 query) = .ok q ∧
      ¬ AutocompletePanics (autocompleteCall ρ msort oi (q.map goString) limit) ∧
      ¬ AutocompleteBlocks (autocompleteCall ρ msort oi (q.map goString) limit) ∧
      (∀ f : Nat → AState (List MergeCandidate) ℚ, ¬ ∀ i, (autocompleteCall ρ msort oi (q.map goString) limit).Step (f i) (f (i + 1))) ∧
      ∃ r, ServiceAutocomplete ρ msort (autocompleteTokenizer lower sort d) oi (ramDict (words.map utf8)) (utf8 query) limit r := by
  have htok := autocompleteTokens hdc hqf
  have hgd : GoodDocs (wordDocs c words) := wordDocs_good hwords fun w hw => by have := hn w hw; omega
  obtain ⟨k1, k2, k3, cs, hcs⟩ := C33_terminates L LG hgd (wordDocs_first (c := c) hfirst) (wordIndex_indexOf hdc hfaith hoi) hs
    (q := ((c.grams (c.prefixText query)).map utf8).map goString) (.of_short (by simpa using hq)) (by simpa using hq0) (limit := limit)
  exact ⟨_, htok, k1, k2, k3, _, .inr ⟨_, cs, htok, hcs, rfl⟩⟩

end

/-- A text with fewer characters than an n-gram is always fit. -/
theorem faithful_short {c : WordConf} {t : List Char} (h : t.length < c.n) : c.Faithful t := by
  intro x hx y hy _
  unfold Spec.windows at hx hy
  simp only [List.mem_map, List.mem_range] at hx hy
  obtain ⟨i, hi, rfl⟩ := hx
  obtain ⟨j, hj, rfl⟩ := hy
  have : i = 0 := by omega
  have : j = 0 := by omega
  subst i j
  rfl

section
variable {lower : Nat → Nat} {sort : List Alphabet → List Alphabet} {d : TokenConf} {c : WordConf}
  {ρ : Roaring} {msort : List (PList ρ) → List (PList ρ)} {query : List Char} {dict : Bytes} {dict' query' raw : Bytes}
  {kvs : List (Bytes × Bytes)} (hd : PctEncoded false dict dict') (hsd : PathSegment dict)
  (hq : PctEncoded false (utf8 query) query') (hsq : PathSegment (utf8 query)) (hform : FormEncoded kvs raw)
  {pf : Bytes → Except Err F64} {numText : ℚ → List Char} (hnum : ∀ x, NumText (numText x)) {F : FloatOps ℚ} {w : World}
  {oi : OpenIndex} {D : Dict} {tok : Tokenizer}
  (hpub : w.published dict = some ⟨oi, D, tok, autocompleteTokenizer lower sort d⟩)

include hd hsd hq hsq hform hnum hpub in
/-- The fate of a request for completions, from what can happen to the call. -/
theorem complete_fate_of {limit : Nat}
    (hK : (fieldValue kvs "topK".toUTF8.toList = [] ∧ limit = 5) ∨
      (IsDecimal (fieldValue kvs "topK".toUTF8.toList) limit ∧ limit < 2 ^ 63))
    {q : List Bytes} (htok : autocompleteTokenizer lower sort d (utf8 query) = .ok q)
    (t1 : ¬ AutocompletePanics (autocompleteCall ρ msort oi (q.map goString) limit))
    (t2 : ¬ AutocompleteBlocks (autocompleteCall ρ msort oi (q.map goString) limit))
    {found : List (List Char)}
    (hex : ∃ r, ServiceAutocomplete ρ msort (autocompleteTokenizer lower sort d) oi D (utf8 query) limit r)
    (hres : ∀ r, ServiceAutocomplete ρ msort (autocompleteTokenizer lower sort d) oi D (utf8 query) limit r →
      r = .ok (found.map fun w => (0, utf8 w))) :
    let fate := RequestFate F ρ msort pf (fun x => utf8 (numText x)) w .get (searchTarget "autocomplete" dict' query' raw)
    (∃ f, fate f) ∧ ∀ f, fate f → ∃ body, f = .answered (.json body) ∧ JsonBody body (itemsJson numText (found.map fun w => (0, w))) := by
  intro fate
  have hk : autocompleteArgs (formValue raw) = .ok limit := by
    unfold autocompleteArgs
    rw [C88_form hform]
    refine C55_topK.2 ?_
    rcases hK with ⟨h, rfl⟩ | ⟨h, h2⟩
    · exact .inl ⟨h, rfl⟩
    · exact .inr ⟨h, by omega, by exact_mod_cast h2⟩
  obtain ⟨path, p1, p2⟩ := (C88_request hd hsd hq hsq (form_plain hform)).2
  obtain ⟨r, hr⟩ := hex
  constructor
  · rw [hres _ hr] at hr
    exact ⟨_, .answered ((answered_complete hd hsd hq hsq hform).2 (.ok hk hpub hr))⟩
  · intro f hf
    cases hf with
    | answered ha =>
      cases (answered_complete hd hsd hq hsq hform).1 ha with
      | bad g => rw [hk] at g; cases g
      | unknown _ g => rw [hpub] at g; cases g
      | failed g1 g3 g4 =>
        rw [hk] at g1; cases g1
        rw [hpub] at g3; cases g3
        cases hres _ g4
      | ok g1 g3 g4 =>
        rename_i items
        rw [hk] at g1; cases g1
        rw [hpub] at g3; cases g3
        have e := hres _ g4
        simp only [Except.ok.injEq] at e
        refine ⟨_, rfl, ?_⟩
        have := items_read hnum items
        rw [e, List.map_map] at this
        have e2 : ((fun it : ℚ × Bytes => (it.1, shown it.2)) ∘ fun w => (0, utf8 w)) = fun w : List Char => ((0 : ℚ), w) := by
          funext w
          simp [shown_utf8]
        rw [e2] at this
        rw [e]
        exact this
    | reindexed g1 g2 | suggestToken g1 g2 | suggest g1 g2 | suggestNaN g1 g2 | suggestEndless g1 g2 =>
      rw [p1] at g1; cases g1
      rw [p2] at g2; cases g2
    | completeToken g1 g2 g3 g4 g5 =>
      rw [p1] at g1; cases g1
      rw [p2] at g2; cases g2
      rw [hpub] at g4; cases g4
      dsimp only at g5
      rw [htok] at g5; cases g5
    | complete g1 g2 g3 g4 g5 g6 =>
      rw [p1] at g1; cases g1
      rw [p2] at g2; cases g2
      rw [hk] at g3; cases g3
      rw [hpub] at g4; cases g4
      dsimp only at g5
      rw [htok] at g5; cases g5
      cases g6 with
      | own h => exact absurd (.inl ⟨_, h⟩) t1
      | blocks h => exact absurd h t2
      | worker hr hp => exact absurd (.inr ⟨_, hr, hp⟩) t1

end

section
variable {ρ : Roaring} (L : ρ.Lawful) {G : Gob} (LG : G.Lawful)
  {lower : Nat → Nat} {sort : List Alphabet → List Alphabet} {d : TokenConf} {c : WordConf} (hdc : Describes lower sort d c)
  {words : List (List Char)} (hwords : words.length < 2 ^ 32) (hfaith : ∀ w ∈ words, c.Faithful (c.wordText w))
  (hfirst : ∀ w, words.head? = some w → c.grams (c.wordText w) ≠ [])
  (hn : ∀ w ∈ words, (c.grams (c.wordText w)).length ≤ 65535)
  {oi : OpenIndex} (hoi : WordIndex ρ G lower sort d words oi)
  {msort : List (PList ρ) → List (PList ρ)} (hs : ∀ r, (msort r).Perm r) {query : List Char} {dict : Bytes}
  {dict' query' raw : Bytes} {kvs : List (Bytes × Bytes)} (hd : PctEncoded false dict dict') (hsd : PathSegment dict)
  (hq : PctEncoded false (utf8 query) query') (hsq : PathSegment (utf8 query)) (hform : FormEncoded kvs raw)
  {pf : Bytes → Except Err F64} {numText : ℚ → List Char} (hnum : ∀ x, NumText (numText x)) {F : FloatOps ℚ} {w : World} {tok : Tokenizer}
  (hpub : w.published dict = some ⟨oi, ramDict (words.map utf8), tok, autocompleteTokenizer lower sort d⟩)

include L LG hdc hwords hfaith hfirst hn hoi hs hd hsd hq hsq hform hnum hpub in
/-- **C94** A request "GET /autocomplete/<dictionary>/<prefix>/?topK=…" is always answered with the words found, for any prefix that has at
most 65535 n-grams (also a short one, and one with characters outside the alphabet), whatever the other requests are; it cannot hang, be
aborted or end the process. -/
theorem C94_complete_any (hqn : (Spec.windows c.n (c.prefixText query)).eraseDups.length ≤ 65535) {limit : Nat}
    (hK : (fieldValue kvs "topK".toUTF8.toList = [] ∧ limit = 5) ∨
      (IsDecimal (fieldValue kvs "topK".toUTF8.toList) limit ∧ limit < 2 ^ 63)) :
    let fate := RequestFate F ρ msort pf (fun x => utf8 (numText x)) w .get (searchTarget "autocomplete" dict' query' raw)
    (∃ f, fate f) ∧ ∀ f, fate f → ∃ body, f = .answered (.json body) ∧
      JsonBody body (itemsJson numText ((c.completions words query limit).map fun w => (0, w))) := by
  by_cases hlen : c.n ≤ (c.prefixText query).length
  · obtain ⟨q, htok, t1, t2, _, hex⟩ := C68_any_answers L LG hdc hwords hfaith hfirst hn hoi hs hlen hqn limit
    have hne : c.grams (c.prefixText query) ≠ [] := by
      unfold WordConf.grams
      rw [if_neg (by omega)]
      intro h0
      have : c.normal ((c.prefixText query).take c.n) ∈ ((Spec.windows c.n (c.prefixText query)).map c.normal).eraseDups := by
        rw [List.mem_eraseDups]
        refine List.mem_map_of_mem ?_
        unfold Spec.windows
        exact List.mem_map.2 ⟨0, by simp, by simp⟩
      rw [h0] at this
      cases this
    unfold WordConf.completions
    rw [if_neg hne]
    exact complete_fate_of hd hsd hq hsq hform hnum hpub hK htok t1 t2 hex fun r hr =>
      C68_any_prefix L LG hdc hwords hfaith hfirst hn hoi hs hlen hqn hr
  · push Not at hlen
    by_cases hb : (utf8 (c.prefixText query)).length < c.n
    · have h0 : c.grams (c.prefixText query) = [] := by
        unfold WordConf.grams
        rw [if_pos hlen, if_pos hb]
      obtain ⟨t1, t2, _, _⟩ := C33_no_tokens_answers (ρ := ρ) (msort := msort) (oi := oi) (limit := limit)
      unfold WordConf.completions
      rw [if_pos h0]
      exact complete_fate_of hd hsd hq hsq hform hnum hpub hK (autocompleteTokens_short hdc hb) t1 t2
        ⟨_, (C68_short_prefix hdc hb).2 rfl⟩ fun r hr => (C68_short_prefix hdc hb).1 hr
    · have hg : c.grams (c.prefixText query) = [c.normal (c.prefixText query)] := by
        unfold WordConf.grams
        rw [if_pos hlen, if_neg hb]
      have hqf : c.Faithful (c.prefixText query) := faithful_short hlen
      have h1 : (c.grams (c.prefixText query)).length ≤ 65535 := by rw [hg]; simp
      have h0 : c.grams (c.prefixText query) ≠ [] := by rw [hg]; simp
      obtain ⟨q, htok, t1, t2, _, hex⟩ := C68_faithful_answers L LG hdc hwords hfaith hfirst hn hoi hs hqf h1 h0 limit
      have hone : (Spec.windows c.n (c.prefixText query)).eraseDups.length = 1 := by
        unfold Spec.windows
        rw [show (c.prefixText query).length - c.n + 1 = 1 by omega]
        simp [List.eraseDups_cons]
      have e : (words.filter fun w => c.matchesPrefix query w &&
          decide ((Spec.windows c.n (c.prefixText query)).eraseDups.length ≤ (c.grams (c.wordText w)).length)) =
          words.filter (c.matchesPrefix query) := by
        apply List.filter_congr
        intro v _
        rw [Bool.eq_iff_iff, Bool.and_eq_true, decide_eq_true_eq, hone]
        refine ⟨And.left, fun h => ⟨h, ?_⟩⟩
        unfold WordConf.matchesPrefix at h
        rw [hg] at h
        simp only [List.all_cons, List.all_nil, Bool.and_true, decide_eq_true_eq] at h
        exact List.length_pos_of_mem h
      unfold WordConf.completions
      rw [if_neg h0, e]
      exact complete_fate_of hd hsd hq hsq hform hnum hpub hK htok t1 t2 hex fun r hr =>
        C68_autocomplete_words L LG hdc hwords hfaith hfirst hn hoi hs hqf h1 h0 hr

end

/-- The dictionary is "apple", "Apply", "maple", "é"; trigrams, `$` put before and behind each word. -/
example : tinySpec.completions ["apple".toList, "Apply".toList, "maple".toList, "é".toList] "APPL".toList 9 = ["apple".toList, "Apply".toList] ∧
    tinySpec.completions ["apple".toList, "Apply".toList, "maple".toList, "é".toList] "APPL".toList 1 = ["apple".toList] ∧
    tinySpec.completions ["apple".toList, "Apply".toList, "maple".toList, "é".toList] "A".toList 9 = [] ∧
    tinySpec.completions ["apple".toList, "Apply".toList, "maple".toList, "é".toList] "é".toList 9 = [] ∧
    { tinySpec with behind := [] }.completions ["apple".toList, "Apply".toList, "maple".toList, "é".toList] "é".toList 9 = ["é".toList] := by
  decide +kernel

end Verif.Props
