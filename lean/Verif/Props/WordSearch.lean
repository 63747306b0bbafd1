import Verif.Proofs.Builder
import Verif.Props.SuggestFloat
import Verif.Props.Autocomplete
/-!
Property theorems C67 and C68: fuzzy search and autocomplete for the words of a dictionary, from the dictionary to the
answer of the service (indexer.go, ngram_index_builder.go, service.go with the tokenizers, the index and the searches).

`Describes lower sort d c` (Verif/Proofs/Builder.lean) — the configuration `d` in the form the code uses says the same as the
specification `c` (Verif/Spec/WordSearch.lean): same n-gram size (1 to 8), alphabet, pad (any text), wrap, lower-casing.
`WordIndex ρ G lower sort d words oi` — `oi` is the index of the dictionary `words`, either built in RAM (driver RAM) or built
on disc by the indexer over any previous files and opened (driver DISC); any map iteration order, any split into writes.
`ServiceSuggest …`, `ServiceAutocomplete …` (Verif/Model/Builder.lean) — the service returns the given value under some
schedule. `c.wordSim sim q w` — the similarity of the sets of n-grams of query and word.
-/
namespace Verif.Props
open Verif Spec Verif.WordSearch

section
variable {ρ : Roaring} (L : ρ.Lawful) {G : Gob} (LG : G.Lawful)
  {lower : Nat → Nat} {sort : List Alphabet → List Alphabet} {d : TokenConf} {c : WordConf} (hdc : Describes lower sort d c)
  {words : List (List Char)} (hwords : words.length < 2 ^ 32) (hfaith : ∀ w ∈ words, c.Faithful (c.wordText w))
  (hfirst : ∀ w, words.head? = some w → c.grams (c.wordText w) ≠ [])
  (hn : ∀ w ∈ words, (c.grams (c.wordText w)).length ≤ 32767)
  {oi : OpenIndex} (hoi : WordIndex ρ G lower sort d words oi)
  {msort : List (PList ρ) → List (PList ρ)} (hs : ∀ r, (msort r).Perm r) {query : List Char}

include L LG hdc hwords hfaith hfirst hn hoi hs in
/-- C67 with an arbitrary dictionary for the values of the answer. -/
theorem suggest_words_any {dict : Dict} (hqf : c.Faithful (c.wordText query)) (hq : (c.grams (c.wordText query)).length ≤ 65535)
    {oob : Int} {α : ℚ} (h0 : 1 / 2 ^ 20 ≤ α) (h1 : α ≤ 1) {M : Metric ℚ} {sim : Nat → Nat → Nat → ℝ}
    (hM : F64Metric oob M sim) {K : Nat} (hK : 1 ≤ K) {r : Except Err (List (ℚ × List UInt8))}
    (hr : ServiceSuggest (f64Ops oob) M ρ msort (suggestTokenizer lower sort d) oi dict (utf8 query) α K r) :
    let simOf := c.wordSim sim query
    ∃ (items : List (ℚ × List UInt8)) (ks : List Nat), r = .ok items ∧
      List.Forall₂ (fun it k => ∃ w, words[k]? = some w ∧ it.2 = dict.get k ∧ |(it.1 : ℝ) - simOf w| ≤ 1 / 2 ^ 50) items ks ∧
      ks.Nodup ∧ ks.length ≤ K ∧
      ks.Pairwise (fun i j => ∀ v w, words[i]? = some v → words[j]? = some w → simOf w ≤ simOf v) ∧
      (∀ k ∈ ks, ∀ w, words[k]? = some w → (α : ℝ) * (1 - 1 / 2 ^ 48) ≤ simOf w) ∧
      ∀ (k : Nat) (w : List Char), words[k]? = some w → (α : ℝ) * (1 + 1 / 2 ^ 48) ≤ simOf w →
        k ∈ ks ∨ (ks.length = K ∧ ∀ j ∈ ks, ∀ v, words[j]? = some v → simOf w ≤ simOf v) := by
  intro simOf
  rcases hr with ⟨e, he, _⟩ | ⟨q, cs, he, hret, rfl⟩
  · rw [suggestTokens hdc hqf] at he; cases he
  rw [suggestTokens hdc hqf] at he
  simp only [Except.ok.injEq] at he
  subst he
  have hgd : GoodDocs (wordDocs c words) := wordDocs_good hwords fun w hw => by have := hn w hw; omega
  have hff := wordDocs_first (c := c) hfirst
  have hio := wordIndex_indexOf hdc hfaith hoi
  rw [List.map_map] at hret
  have hqn : ((c.grams (c.wordText query)).map term).Nodup := (grams_nodup _).map_on fun _ _ _ _ e => term_inj e
  have hsim : ∀ (k : Nat) (w : List Char), sim ((c.grams (c.wordText query)).map term).length (wordDoc c k w).terms.length
      (shared ((c.grams (c.wordText query)).map term) (wordDoc c k w)) = simOf w := by
    intro k w
    rw [shared_words]
    simp [wordDoc, simOf, WordConf.wordSim]
  obtain ⟨cs', ds, rfl, r1, r2, r3, r4, r5, r6⟩ := C66_float_suggest L LG hgd hff hio hs
    (q := (c.grams (c.wordText query)).map term) (by simpa using hq) hqn h0 h1
    (fun x hx => by
      obtain ⟨k, w, h, rfl⟩ := mem_wordDocs.1 hx
      simpa [wordDoc] using hn w (List.mem_of_getElem? h)) hM hK hret
  have hds : ∀ x ∈ ds, ∃ w, words[x.id]? = some w ∧ x = wordDoc c x.id w := by
    intro x hx
    obtain ⟨k, w, h, rfl⟩ := mem_wordDocs.1 (r5 x hx).1
    exact ⟨w, h, rfl⟩
  have hdsim : ∀ x ∈ ds, ∀ w, words[x.id]? = some w →
      sim ((c.grams (c.wordText query)).map term).length x.terms.length
        (shared ((c.grams (c.wordText query)).map term) x) = simOf w := by
    intro x hx w hw
    obtain ⟨w', h, e⟩ := hds x hx
    rw [hw] at h
    cases h
    rw [e]
    exact hsim x.id w
  refine ⟨_, ds.map Doc.id, answer_ok _ _, ?_, ?_, by simpa using r3, ?_, ?_, ?_⟩
  · rw [List.forall₂_map_left_iff, List.forall₂_map_right_iff]
    have r1' := forall₂_mem r1
    refine r1'.imp ?_
    rintro a x ⟨hx, hk, hsc⟩
    obtain ⟨w, hw, e⟩ := hds x hx
    refine ⟨w, hw, ?_, ?_⟩
    · simp only
      rw [hk]
    · simp only [hdsim x hx w hw] at hsc
      exact hsc
  · refine r2.map_on ?_
    intro x hx y hy e
    obtain ⟨v, hv, ex⟩ := hds x hx
    obtain ⟨w, hw, ey⟩ := hds y hy
    rw [e] at hv
    rw [hv] at hw
    cases hw
    rw [ex, ey, e]
  · rw [List.pairwise_map]
    refine List.Pairwise.imp_of_mem ?_ r4
    intro x y hx hy hxy v w hv hw
    rw [← hdsim x hx v hv, ← hdsim y hy w hw]
    exact hxy
  · intro k hk w hw
    obtain ⟨x, hx, rfl⟩ := List.mem_map.1 hk
    rw [← hdsim x hx w hw]
    exact (r5 x hx).2
  · intro k w hw hle
    rcases r6 (wordDoc c k w) (mem_wordDocs.2 ⟨k, w, hw, rfl⟩) (by simp only [hsim]; exact hle) with h | ⟨h2, h3⟩
    · exact .inl (List.mem_map.2 ⟨_, h, rfl⟩)
    · refine .inr ⟨by simpa using h2, ?_⟩
      intro j hj v hv
      obtain ⟨x, hx, rfl⟩ := List.mem_map.1 hj
      have := h3 x hx
      simp only [hsim] at this
      rw [ hdsim x hx v hv] at this
      exact this

include L LG hdc hwords hfaith hfirst hn hoi hs in
/-- **C67** Fuzzy search for words, in float64 arithmetic, under every schedule: the answer lists words of the dictionary
(at the positions `ks`), no position twice, at most `K`, by decreasing similarity of the n-gram sets, with scores within
2^-50 of the similarity; every word listed has a similarity of at least `α` up to a relative error of 2^-48; a word whose
similarity exceeds `α` by that margin is listed, or `K` words are listed that are all at least as similar. -/
theorem C67_suggest_words (hqf : c.Faithful (c.wordText query)) (hq : (c.grams (c.wordText query)).length ≤ 65535)
    {oob : Int} {α : ℚ} (h0 : 1 / 2 ^ 20 ≤ α) (h1 : α ≤ 1) {M : Metric ℚ} {sim : Nat → Nat → Nat → ℝ}
    (hM : F64Metric oob M sim) {K : Nat} (hK : 1 ≤ K) {r : Except Err (List (ℚ × List UInt8))}
    (hr : ServiceSuggest (f64Ops oob) M ρ msort (suggestTokenizer lower sort d) oi (ramDict (words.map utf8)) (utf8 query) α K r) :
    let simOf := c.wordSim sim query
    ∃ (items : List (ℚ × List UInt8)) (ks : List Nat), r = .ok items ∧
      List.Forall₂ (fun it k => ∃ w, words[k]? = some w ∧ it.2 = utf8 w ∧ |(it.1 : ℝ) - simOf w| ≤ 1 / 2 ^ 50) items ks ∧
      ks.Nodup ∧ ks.length ≤ K ∧
      ks.Pairwise (fun i j => ∀ v w, words[i]? = some v → words[j]? = some w → simOf w ≤ simOf v) ∧
      (∀ k ∈ ks, ∀ w, words[k]? = some w → (α : ℝ) * (1 - 1 / 2 ^ 48) ≤ simOf w) ∧
      ∀ (k : Nat) (w : List Char), words[k]? = some w → (α : ℝ) * (1 + 1 / 2 ^ 48) ≤ simOf w →
        k ∈ ks ∨ (ks.length = K ∧ ∀ j ∈ ks, ∀ v, words[j]? = some v → simOf w ≤ simOf v) := by
  intro simOf
  obtain ⟨items, ks, h1, h2, h3⟩ := suggest_words_any L LG hdc hwords hfaith hfirst hn hoi hs hqf hq h0 h1 hM hK hr
  refine ⟨items, ks, h1, h2.imp ?_, h3⟩
  rintro it k ⟨w, e1, e2, e3⟩
  exact ⟨w, e1, by rw [e2, dict_get e1], e3⟩

include L LG hdc hwords hfaith hfirst hn hoi hs in
/-- **C67** (partial: some word must have at least `MinY(α, |query|)` n-grams, see C30) … and the service does answer: the
search cannot panic, block or run for ever. -/
theorem C67_answers_partial (hqf : c.Faithful (c.wordText query)) (hq : (c.grams (c.wordText query)).length ≤ 65535)
    {oob : Int} {α : ℚ} (h0 : 1 / 2 ^ 20 ≤ α) (h1 : α ≤ 1) {M : Metric ℚ} {sim : Nat → Nat → Nat → ℝ}
    (hM : F64Metric oob M sim) {K : Nat} (hK : 1 ≤ K)
    (hlong : ∃ w ∈ words, M.minY α (c.grams (c.wordText query)).length ≤ (c.grams (c.wordText w)).length) :
    ∃ q, suggestTokenizer lower sort d (utf8 query) = .ok q ∧
      let call := suggestCall (f64Ops oob) M ρ msort oi (q.map goString) α K
      ¬ SuggestPanics call ∧ ¬ SuggestBlocks call ∧ (∀ f : Nat → SState ℚ, ¬ ∀ i, call.Step (f i) (f (i + 1))) ∧
      ∃ r, ServiceSuggest (f64Ops oob) M ρ msort (suggestTokenizer lower sort d) oi (ramDict (words.map utf8)) (utf8 query) α K r := by
  refine ⟨_, suggestTokens hdc hqf, ?_⟩
  intro call
  have hgd : GoodDocs (wordDocs c words) := wordDocs_good hwords fun w hw => by have := hn w hw; omega
  obtain ⟨w, hw, hle⟩ := hlong
  obtain ⟨k, hk⟩ := List.getElem?_of_mem hw
  have key := C30_float_terminates_partial L LG hgd (wordDocs_first (c := c) hfirst) (wordIndex_indexOf hdc hfaith hoi) hs
    (q := (c.grams (c.wordText query)).map term) (by simpa using hq) ((grams_nodup _).map_on fun _ _ _ _ e => term_inj e) h0 h1
    (fun x hx => by
      obtain ⟨k, w, h, rfl⟩ := mem_wordDocs.1 hx
      simpa [wordDoc] using hn w (List.mem_of_getElem? h)) hM hK
    ⟨wordDoc c k w, mem_wordDocs.2 ⟨k, w, hk, rfl⟩, by simpa [wordDoc] using hle⟩
  have e : ((c.grams (c.wordText query)).map utf8).map goString = (c.grams (c.wordText query)).map term := by
    rw [List.map_map]; rfl
  simp only [call, e]
  obtain ⟨k1, k2, k3, r, hr⟩ := key
  refine ⟨k1, k2, k3, answerOf (ramDict (words.map utf8)) r, .inr ⟨_, r, suggestTokens hdc hqf, ?_, rfl⟩⟩
  rw [e]; exact hr

end

section
variable {ρ : Roaring} (L : ρ.Lawful) {G : Gob} (LG : G.Lawful)
  {lower : Nat → Nat} {sort : List Alphabet → List Alphabet} {d : TokenConf} {c : WordConf} (hdc : Describes lower sort d c)
  {words : List (List Char)} (hwords : words.length < 2 ^ 32) (hfaith : ∀ w ∈ words, c.Faithful (c.wordText w))
  (hfirst : ∀ w, words.head? = some w → c.grams (c.wordText w) ≠ [])
  (hn : ∀ w ∈ words, (c.grams (c.wordText w)).length ≤ 65535)
  {oi : OpenIndex} (hoi : WordIndex ρ G lower sort d words oi)
  {msort : List (PList ρ) → List (PList ρ)} (hs : ∀ r, (msort r).Perm r) {query : List Char}

include L LG hdc hwords hfaith hfirst hn hoi hs in
/-- **C68** Autocomplete for words, under every schedule: the answer lists the first `limit` words of the dictionary, in the
order of the dictionary, among those that contain every n-gram of the prefix typed; the scores are 0. -/
theorem C68_autocomplete_words (hqf : c.Faithful (c.prefixText query)) (hq : (c.grams (c.prefixText query)).length ≤ 65535)
    (hq0 : c.grams (c.prefixText query) ≠ []) {limit : Nat} {r : Except Err (List (ℚ × List UInt8))}
    (hr : ServiceAutocomplete ρ msort (autocompleteTokenizer lower sort d) oi (ramDict (words.map utf8)) (utf8 query) limit r) :
    r = .ok (((words.filter (c.matchesPrefix query)).take limit).map fun w => (0, utf8 w)) := by
  rcases hr with ⟨e, he, _⟩ | ⟨q, cs, he, hret, rfl⟩
  · rw [autocompleteTokens hdc hqf] at he; cases he
  rw [autocompleteTokens hdc hqf] at he
  simp only [Except.ok.injEq] at he
  subst he
  have hgd : GoodDocs (wordDocs c words) := wordDocs_good hwords fun w hw => by have := hn w hw; omega
  rw [List.map_map] at hret
  have key := C33_autocomplete L LG hgd (wordDocs_first (c := c) hfirst) (wordIndex_indexOf hdc hfaith hoi) hs
    (q := (c.grams (c.prefixText query)).map term) (.of_short (by simpa using hq)) ((grams_nodup _).map_on fun _ _ _ _ e => term_inj e)
    (by simpa using hq0) hret
  subst key
  rw [answer_ok]
  simp only [Except.map, List.map_map, Except.ok.injEq]
  -- the ids of the documents that contain the terms = the positions of the words that match
  have hmem : ∀ (k : Nat) (w : List Char), (((c.grams (c.prefixText query)).map term).all fun t => decide (t ∈ (wordDoc c k w).terms)) =
      c.matchesPrefix query w := by
    intro k w
    unfold WordConf.matchesPrefix
    rw [List.all_map]
    congr 1
    funext x
    rw [Bool.eq_iff_iff]
    show decide (term x ∈ (c.grams (c.wordText w)).map term) = true ↔ decide (x ∈ c.grams (c.wordText w)) = true
    rw [decide_eq_true_eq, decide_eq_true_eq]
    constructor
    · intro hx
      obtain ⟨y, hy, e⟩ := List.mem_map.1 hx
      rwa [← term_inj e]
    · exact fun hx => List.mem_map_of_mem hx
  have hids : containing (wordDocs c words) ((c.grams (c.prefixText query)).map term) =
      (words.zipIdx.filter fun wi => c.matchesPrefix query wi.1).map Prod.snd := by
    unfold containing wordDocs
    rw [List.filter_map, List.map_map]
    have : (words.zipIdx.filter ((fun x : Doc => ((c.grams (c.prefixText query)).map term).all fun t => decide (t ∈ x.terms)) ∘
        fun wi => wordDoc c wi.2 wi.1)) = words.zipIdx.filter fun wi => c.matchesPrefix query wi.1 := by
      apply List.filter_congr
      intro wi _
      exact hmem wi.2 wi.1
    rw [this]
    rfl
  rw [hids, ← List.map_take, List.map_map]
  have hw : (words.filter (c.matchesPrefix query)) = (words.zipIdx.filter fun wi => c.matchesPrefix query wi.1).map Prod.fst := by
    have e : words = words.zipIdx.map Prod.fst := by simp
    conv_lhs => rw [e]
    rw [List.filter_map]
    rfl
  rw [hw, ← List.map_take, List.map_map]
  apply List.map_congr_left
  intro wi hwi
  have h2 := (List.mem_filter.1 (List.mem_of_mem_take hwi)).1
  rw [List.mem_zipIdx_iff_getElem?] at h2
  simp only [Function.comp_apply, Prod.mk.injEq, true_and]
  exact dict_get h2

end

/-- **C68** Every word that starts with the prefix typed (lower-casing aside) matches it, if the prefix with what is put
before it has at least `n` characters: so it is listed unless `limit` earlier words match. -/
theorem C68_prefixes_match {c : WordConf} {query rest w : List Char} (hlow : w.map c.lower = (query ++ rest).map c.lower)
    (h : c.n ≤ (c.prefixText query).length) (hpos : 1 ≤ c.n) : c.matchesPrefix query w = true := by
  unfold WordConf.matchesPrefix
  rw [List.all_eq_true]
  intro g hg
  rw [decide_eq_true_eq]
  have hcat : (c.before ++ w ++ c.behind).map c.lower =
      (c.before ++ query).map c.lower ++ (rest ++ c.behind).map c.lower := by
    rw [List.map_append, List.map_append, hlow]; simp
  rcases trim_prefix ((c.before ++ query).map c.lower) ((rest ++ c.behind).map c.lower) with h0 | ⟨rest', h1⟩
  · unfold WordConf.prefixText at h
    rw [h0] at h
    simp only [List.length_nil] at h
    omega
  · have e : c.wordText w = c.prefixText query ++ rest' := by
      unfold WordConf.wordText WordConf.prefixText
      rw [hcat]; exact h1
    rw [e]
    unfold WordConf.grams at hg ⊢
    rw [if_neg (by omega)] at hg
    rw [if_neg (by rw [List.length_append]; omega)]
    rw [List.mem_eraseDups] at hg ⊢
    obtain ⟨x, hx, rfl⟩ := List.mem_map.1 hg
    exact List.mem_map_of_mem (windows_prefix _ _ _ h hx)

/-! ### A concrete dictionary -/

/-- Lower-casing of ASCII letters. -/
def asciiLower (r : Nat) : Nat := if 65 ≤ r ∧ r ≤ 90 then r + 32 else r

/-- Trigrams, English letters, `$` as pad and wrap — as the code has it. -/
def tinyConf : TokenConf := ⟨3, [utf8 "english".toList], utf8 ['$'], utf8 ['$'], utf8 ['$']⟩

/-- … and as the specification has it. -/
def tinySpec : WordConf :=
  ⟨3, fun x => decide ('a'.toNat ≤ x.toNat) && decide (x.toNat ≤ 'z'.toNat), ['$'], ['$'], ['$'],
    fun x => if 65 ≤ x.toNat ∧ x.toNat ≤ 90 then Char.ofNat (x.toNat + 32) else x⟩

theorem tiny_describes : Describes asciiLower id tinyConf tinySpec := by
  refine ⟨rfl, rfl, rfl, rfl, ?_, ?_, by decide, by decide⟩
  · intro x
    rw [Bool.eq_iff_iff]
    have := C39_create id (fun l => List.Perm.refl l) ["english".toList] x
    rw [show tinyConf.alphabet = ["english".toList].map utf8 from rfl, this]
    simp only [tinySpec, Bool.and_eq_true, decide_eq_true_eq]
    constructor
    · rintro ⟨e, he, h⟩
      rw [List.mem_singleton] at he
      rwa [if_pos he] at h
    · intro h
      exact ⟨_, List.mem_singleton.2 rfl, by rwa [if_pos rfl]⟩
  · intro x
    unfold asciiLower tinySpec
    simp only
    split
    · rename_i h
      have hv : Nat.isValidChar (x.toNat + 32) := by left; omega
      exact (toNat_ofNat hv).symm
    · rfl

/-- Other pads: none, as when a description leaves it out, and one of two characters. The words may have other characters. -/
example : (∀ pad : List Char, Describes asciiLower id { tinyConf with pad := utf8 pad } { tinySpec with pad := pad }) ∧
    WordConf.Faithful { tinySpec with pad := [] } (tinySpec.wordText "O'Neil".toList) ∧
    WordConf.grams { tinySpec with pad := [] } (tinySpec.wordText "O'Neil".toList) =
      ["o".toList, "on".toList, "ne".toList, "nei".toList, "eil".toList, "il".toList] ∧
    WordConf.grams { tinySpec with pad := "%%".toList } (tinySpec.wordText "O'Neil".toList) =
      ["%%o%%".toList, "o%%n".toList, "%%ne".toList, "nei".toList, "eil".toList, "il%%".toList] := by
  refine ⟨fun pad => ⟨rfl, rfl, rfl, rfl, tiny_describes.letter, tiny_describes.lower, tiny_describes.pos, tiny_describes.le⟩, ?_, ?_, ?_⟩
  · unfold WordConf.Faithful; decide +kernel
  · decide +kernel
  · decide +kernel

/-- Three words. -/
def tinyWords : List (List Char) := ["apple".toList, "Apply".toList, "maple".toList]

theorem tiny_faithful : ∀ w ∈ tinyWords, tinySpec.Faithful (tinySpec.wordText w) := by
  intro w hw
  apply faithful_of_clean
  revert w
  decide +kernel

/-- The documents fit. -/
def tinyBytes : Nat :=
  match addDocuments ((wordDocs tinySpec tinyWords).map fun x => (x.id, x.terms)) [] with
  | .error _ => 2 ^ 32
  | .ok ix =>
    match commitData toyRoaring (fun _ m => m) ix with
    | .error _ => 2 ^ 32
    | .ok (b, _) => b.length

theorem tiny_index : ∃ (G : Gob) (_ : G.Lawful) (oi : OpenIndex), WordIndex toyRoaring G asciiLower id tinyConf tinyWords oi := by
  obtain ⟨G, LG⟩ := gob_contract_satisfiable
  have hlen : tinyBytes < 2 ^ 32 := by decide +kernel
  obtain ⟨oi, _, h⟩ := wordIndex_ram toyLawful LG tiny_describes tiny_faithful
    (wordDocs_good (by decide) (by decide +kernel)) (wordDocs_first (by decide +kernel)) (order := fun _ m => m)
    (fun _ _ => .refl _) (by
      intro b hd he
      rw [indexData_words tiny_describes tiny_faithful] at he
      unfold tinyBytes at hlen
      split at he
      · cases he
      · rename_i ix hix
        rw [hix] at hlen
        simp only [he] at hlen
        exact hlen) "words" (sd := fun b => [b]) (sh := fun b => [b]) (by simp) (by simp)
  exact ⟨G, LG, oi, h⟩

/-- Non-vacuity of C67: the query "appl" at similarity 1/2 (Jaccard), top 2, has an answer; the similarity of "apple" is
3/6 … -/
example : ∃ (G : Gob) (_ : G.Lawful) (oi : OpenIndex), WordIndex toyRoaring G asciiLower id tinyConf tinyWords oi ∧
    tinySpec.Faithful (tinySpec.wordText "appl".toList) ∧
    (∃ r, ServiceSuggest (f64Ops 0) (jaccardMetric (f64Ops 0)) toyRoaring id (suggestTokenizer asciiLower id tinyConf) oi
      (ramDict (tinyWords.map utf8)) (utf8 "appl".toList) (1 / 4) 2 r) ∧
    (((1 / 4 : ℚ)) : ℝ) * (1 + 1 / 2 ^ 48) ≤ tinySpec.wordSim jaccardSim "appl".toList "apple".toList := by
  obtain ⟨G, LG, oi, h⟩ := tiny_index
  have hqf : tinySpec.Faithful (tinySpec.wordText "appl".toList) := faithful_of_clean (by decide +kernel)
  refine ⟨G, LG, oi, h, hqf, ?_, ?_⟩
  · obtain ⟨q, _, _, _, _, hr⟩ := C67_answers_partial toyLawful LG tiny_describes (by decide) tiny_faithful (by decide +kernel)
      (by decide +kernel) h (msort := id) (fun _ => .refl _) hqf (by decide +kernel) (oob := 0) (α := 1 / 4) (by norm_num)
      (by norm_num) .jaccard (K := 2) (by decide) ⟨"apple".toList, by decide, by decide +kernel⟩
    exact hr
  · have e : tinySpec.wordSim jaccardSim "appl".toList "apple".toList = jaccardSim 4 5 3 := by
      have h1 : (tinySpec.grams (tinySpec.wordText "appl".toList)).length = 4 := by decide +kernel
      have h2 : (tinySpec.grams (tinySpec.wordText "apple".toList)).length = 5 := by decide +kernel
      have h3 : ((tinySpec.grams (tinySpec.wordText "appl".toList)).filter
          (· ∈ tinySpec.grams (tinySpec.wordText "apple".toList))).length = 3 := by decide +kernel
      simp only [WordConf.wordSim, h1, h2, h3]
    rw [e]
    norm_num [jaccardSim]

/-- Non-vacuity of C68: "AP" matches the first two words. -/
example : tinySpec.Faithful (tinySpec.prefixText "AP".toList) ∧ tinySpec.grams (tinySpec.prefixText "AP".toList) ≠ [] ∧
    tinyWords.filter (tinySpec.matchesPrefix "AP".toList) = ["apple".toList, "Apply".toList] ∧
    "Apply".toList.map tinySpec.lower = ("AP".toList ++ "ply".toList).map tinySpec.lower ∧
    tinySpec.n ≤ (tinySpec.prefixText "AP".toList).length :=
  ⟨faithful_of_clean (by decide +kernel), by decide +kernel, by decide +kernel, by decide +kernel, by decide +kernel⟩

/-! ### Words with characters outside the alphabet -/

/-- The index of a document with the term "$$$" four times, as written. -/
def dupIx : Indices := [none, none, none, none, some [(goString (utf8 "$$$".toList), [0, 0, 0, 0])]]

/-- Its header. -/
def dupHeader : Header := ⟨indexVersion, 5, [⟨goString (utf8 "$$$".toList), 4, 4, 0, 4⟩]⟩

theorem dup_data : indexData toyRoaring (fun _ m => m) (suggestTokenizer id id exampleConf.conf) (ramDict [utf8 "!!?!".toList]) =
    .ok ([0, 0, 0, 0], dupHeader) := by
  unfold indexData
  have h1 : indexDict (suggestTokenizer id id exampleConf.conf) (ramDict [utf8 "!!?!".toList]) [] = .ok dupIx := by
    simp only [ramDict, List.zipIdx_cons, List.zipIdx_nil, List.map_cons, List.map_nil, indexDict, C40_duplicates]
    decide +kernel
  rw [h1]
  decide +kernel

/-- The table of the documents with four terms. -/
def dupTable : Table := fun x => if x = goString (utf8 "$$$".toList) then some ⟨4, 0, 4⟩ else none

/-- The opened index. -/
def dupOpen : OpenIndex := ⟨⟨[0, 0, 0, 0], 0⟩, [none, none, none, none, some dupTable]⟩

theorem dup_built {G : Gob} (LG : G.Lawful) (name : String) :
    buildRAM toyRoaring G (fun _ m => m) (fun b => [b]) (fun b => [b]) name (suggestTokenizer id id exampleConf.conf)
      (ramDict [utf8 "!!?!".toList]) = .ok dupOpen := by
  unfold buildRAM
  rw [dup_data]
  obtain ⟨f1, f2⟩ := commitRAM_files (writerConfig_ne name) (fun _ => none) [[0, 0, 0, 0]] [G.encode dupHeader]
  exact readIndex_ok LG (h := dupHeader) (rest := []) (by unfold openRAM; rw [f2]; simp) rfl (by unfold openRAM; rw [f1]; simp)
    (by
      simp only [dupHeader, buildTables, dupOpen]
      have : (List.replicate 5 (none : Option Table))[4]? = some none := rfl
      rw [this]
      simp only
      rw [if_neg (by decide)]
      rfl)

/-- The call of `Suggest` for "!!?!" with similarity 1, Jaccard, top 5. -/
def dupCall : SConf ℚ (Nat → SkipList) := suggestCall (f64Ops 0) (jaccardMetric (f64Ops 0)) toyRoaring id dupOpen
    (List.replicate 4 (goString (utf8 "$$$".toList))) 1 5

/-- An empty queue. -/
def dupQ0 : TopKQueue ℚ := ⟨5, fun _ => ⟨0, default⟩, 0⟩

/-- The pooled objects do not matter. -/
def dupStale : Nat → SkipList := fun _ => ⟨⟨[], 0⟩, 0, 0, 0, 0, 0, 0, false⟩

/-- The search of the only worker. -/
def dupSearch : TopKQueue ℚ × Option Err :=
  search toyRoaring (cpMerge (fuzzyCollect (dupCall.score 4)) id) dupOpen.docs dupStale dupTable
    (List.replicate 4 (goString (utf8 "$$$".toList))) (dupCall.thr 1 4) dupQ0

/-- The queue after the worker has delivered its results. -/
def dupQueue : TopKQueue ℚ := match dupQ0.merge dupSearch.1 with | .ok q => q | .error _ => dupQ0

theorem dup_returns : SuggestReturns dupCall (.ok (List.replicate 4 ⟨0, 1⟩)) := by
  have b1 : dupCall.bMin = 4 := by decide +kernel
  have b2 : dupCall.bMax = 4 := by decide +kernel
  have hsend : sendLoop 4 4 4 5 = [4] := by decide +kernel
  let s0 : SState ℚ := ⟨[4], false, [], 1, 1, dupQ0, false, [.idle], none⟩
  have hstart : dupCall.start = .ok s0 := by
    unfold SConf.start
    rw [b1, b2]
    have e : dupCall.sizeA = 4 := rfl
    rw [e]
    simp only [show ¬ ((4 : Int) - 4 + 1 < 0) by decide, if_false]
    rw [show (((4 : Nat) : Int) + 1) = 5 from rfl, show ((4 : Nat) : Int) = 4 from rfl, hsend]
    rfl
  have hmerge : dupQ0.merge dupSearch.1 = .ok dupQueue := by
    have : (match dupQ0.merge dupSearch.1 with | .ok _ => true | .error _ => false) = true := by decide +kernel
    unfold dupQueue
    cases hm : dupQ0.merge dupSearch.1 with
    | ok q => rfl
    | error e => rw [hm] at this; cases this
  have hthr : dupCall.thr 1 4 = 4 := by decide +kernel
  have hns : ¬ dupCall.skips 1 4 := by
    unfold SConf.skips
    rw [hthr]
    rintro (h | h | h | h)
    · cases h
    · omega
    · have : dupCall.sizeA = 4 := rfl
      rw [this] at h; omega
    · have : dupCall.indices.get 4 = some fun env collect T k =>
        search toyRoaring (cpMerge collect id) dupOpen.docs env dupTable (List.replicate 4 (goString (utf8 "$$$".toList))) T k := rfl
      rw [this] at h; cases h
  have r0 : dupCall.Reachable s0 := .start hstart
  have r1 := r0.step (.send (b := 4) (rest := []) rfl rfl (by decide))
  have r2 := r1.step (.close rfl rfl rfl)
  have r3 := r2.step (.recv (b := 4) (rest := []) (i := 0) rfl rfl rfl)
  have r4 := r3.step (.load (b := 4) (i := 0) rfl rfl)
  have r5 := r4.step (.search (b := 4) (a := 1) (i := 0) (q0 := dupQ0) (q' := dupSearch.1)
    (f := fun env collect T k => search toyRoaring (cpMerge collect id) dupOpen.docs env dupTable
      (List.replicate 4 (goString (utf8 "$$$".toList))) T k) dupStale rfl rfl hns rfl rfl
    (Prod.ext rfl (show dupSearch.2 = none by decide +kernel)))
  have r6 := r5.step (.commit (b := 4) (q := dupSearch.1) (g := dupQueue) (i := 0) rfl rfl rfl hmerge)
  have r7 := r6.step (.raise (i := 0) rfl rfl)
  have r8 := r7.step (.unlock (i := 0) rfl rfl)
  have r9 := r8.step (.exit (i := 0) rfl rfl rfl rfl)
  have hres : dupQueue.getCandidates.1 = List.replicate 4 ⟨0, 1⟩ := by decide +kernel
  have := SuggestReturns.run (c := dupCall) (by decide) r9 ⟨rfl, rfl, by
    intro w hw
    rw [show w = .done none by simpa [s0] using hw]
    exact ⟨none, rfl⟩⟩
  rw [← hres]
  exact this

/-- **C67** is false for words whose n-grams are not distinct after the replacement of characters outside the alphabet:
the dictionary contains the word "!!?!" once, and the service lists it four times for the query "!!?!". -/
theorem C67_repeated_word {G : Gob} (LG : G.Lawful) (name : String) :
    ∃ (ρ : Roaring) (_ : ρ.Lawful) (oi : OpenIndex),
      buildRAM ρ G (fun _ m => m) (fun b => [b]) (fun b => [b]) name (suggestTokenizer id id exampleConf.conf)
        (ramDict [utf8 "!!?!".toList]) = .ok oi ∧
      ServiceSuggest (f64Ops 0) (jaccardMetric (f64Ops 0)) ρ id (suggestTokenizer id id exampleConf.conf) oi
        (ramDict [utf8 "!!?!".toList]) (utf8 "!!?!".toList) 1 5 (.ok (List.replicate 4 (1, utf8 "!!?!".toList))) := by
  refine ⟨toyRoaring, toyLawful, dupOpen, dup_built LG name, .inr ⟨_, .ok (List.replicate 4 ⟨0, 1⟩), C40_duplicates, ?_, ?_⟩⟩
  · rw [List.map_replicate]; exact dup_returns
  · rw [answer_ok, List.map_replicate]; rfl

/-- **C67** The first word must have an n-gram: otherwise building the index panics (which takes the process down), with
every configuration and whatever words follow. -/
theorem C67_first_word_panics {lower : Nat → Nat} {sort : List Alphabet → List Alphabet} {d : TokenConf} {c : WordConf}
    (hdc : Describes lower sort d c) (w : List Char) (words : List (List Char)) (hw : c.grams (c.wordText w) = [])
    (hf : c.Faithful (c.wordText w)) (ρ : Roaring) (G : Gob) (order : Nat → TermMap → TermMap)
    (splitDocs splitHeader : List UInt8 → List (List UInt8)) (name : String) :
    buildRAM ρ G order splitDocs splitHeader name (suggestTokenizer lower sort d) (ramDict ((w :: words).map utf8)) =
      .error .panicMake := by
  unfold buildRAM indexData
  simp only [ramDict, List.map_cons, List.zipIdx_cons, indexDict]
  rw [suggestTokens hdc hf, hw]
  rfl

/-- Non-vacuity: with trigrams and `$` as wrap the empty line has no trigram (`$$` is too short). -/
example : tinySpec.grams (tinySpec.wordText []) = [] ∧ tinySpec.Faithful (tinySpec.wordText []) :=
  ⟨by decide +kernel, faithful_of_clean (by decide +kernel)⟩

end Verif.Props
