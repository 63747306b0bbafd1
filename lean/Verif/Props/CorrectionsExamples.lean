import Verif.Props.Corrections
import Verif.Props.MPHTermination
/-!
A complete run of C71 on the corpus "apple pie", "apple tart" with the index description of the command line
(cmd/spellchecker/cmd/eval.go:16-23), the hypotheses of C71 are met; and C72: the symbols for the start and the end of a
sentence are offered as corrections.
-/
namespace Verif.Props
open Verif Spec Verif.WordSearch Verif.Correct Verif.NFiles Verif.CFiles Verif.Scan

/-- Trigrams, `^` and `$` around the words, English, Russian, digits and `$^'` — cmd/spellchecker/cmd/eval.go:16-23. -/
def cliConf : TokenConf := ⟨3, ["english".toList, "russian".toList, "numbers".toList, "$^'".toList].map utf8, utf8 ['$'], utf8 ['^'], utf8 ['$']⟩

/-- The letters of an alphabet of English and Russian letters, digits and the given characters. -/
def someLetters (other : List Char) (x : Char) : Bool :=
  (decide ('a'.toNat ≤ x.toNat) && decide (x.toNat ≤ 'z'.toNat)) ||
  ((decide ('а'.toNat ≤ x.toNat) && decide (x.toNat ≤ 'я'.toNat)) || x == 'ё') ||
  (decide ('0'.toNat ≤ x.toNat) && decide (x.toNat ≤ '9'.toNat)) || other.elem x

theorem someLetters_has (other : List Char) (h : other ≠ "english".toList ∧ other ≠ "russian".toList ∧ other ≠ "numbers".toList)
    (x : Char) : (Alphabet.create id (["english".toList, "russian".toList, "numbers".toList, other].map utf8)).has x.toNat =
      someLetters other x := by
  rw [Bool.eq_iff_iff]
  have ex : ∀ (P : List Char → Prop) (a b c d : List Char), (∃ e ∈ [a, b, c, d], P e) ↔ P a ∨ P b ∨ P c ∨ P d := by
    intro P a b c d; simp
  rw [C39_create id (fun l => List.Perm.refl l) ["english".toList, "russian".toList, "numbers".toList, other] x, ex]
  rw [if_pos rfl, if_neg (by decide), if_pos rfl, if_neg (by decide), if_neg (by decide), if_pos rfl,
    if_neg h.1, if_neg h.2.1, if_neg h.2.2]
  unfold someLetters
  rw [Bool.or_eq_true, Bool.or_eq_true, Bool.or_eq_true, Bool.and_eq_true, Bool.or_eq_true, Bool.and_eq_true, Bool.and_eq_true]
  rw [decide_eq_true_eq, decide_eq_true_eq, decide_eq_true_eq, decide_eq_true_eq, decide_eq_true_eq, decide_eq_true_eq,
    beq_iff_eq, List.elem_iff]
  simp only [or_assoc]

/-- … and as the specification has it (lower-casing only of ASCII letters, for simplicity). -/
def cliSpec : WordConf := ⟨3, someLetters "$^'".toList, ['$'], ['^'], ['$'], tinySpec.lower⟩

theorem cli_describes : Describes asciiLower id cliConf cliSpec :=
  ⟨rfl, rfl, rfl, rfl, fun x => someLetters_has "$^'".toList (by decide) x, tiny_describes.lower, by decide, by decide⟩

/-- "apple pie", "apple tart". -/
def pieCorpus : List (List (List Char)) := [["apple".toList, "pie".toList], ["apple".toList, "tart".toList]]

def pieWords : List (List Char) := ["</S>".toList, "<S>".toList, "apple".toList, "pie".toList, "tart".toList]

abbrev markStart : List Char := "<S>".toList
abbrev markEnd : List Char := "</S>".toList

theorem pie_training : Training markStart markEnd 2 pieCorpus := by
  refine ⟨?_, by decide, by decide, by decide, by decide, by decide, by decide⟩
  refine goodCorpus_of_short (B := 5) (by decide) (by decide) ?_ ?_ ?_ (by decide)
  all_goals unfold PlainWord; decide

/-- The file `1-gm`. -/
def pieFirst : Bytes := utf8 "<S>\t2\napple\t2\npie\t1\n</S>\t2\ntart\t1\n".toList

theorem pie_built : ∃ st, BuildReachable (utf8 markStart) (utf8 markEnd) 2 (pieCorpus.map fun s => s.map utf8) st ∧ st.returned = true ∧
    ∃ outs, nGramWrite 2 st.trie (fun _ l => l) = .ok outs ∧ outs[0]? = some pieFirst := by
  have h0 : BuildReachable (utf8 markStart) (utf8 markEnd) 2 (pieCorpus.map fun s => s.map utf8) _ := .init
  have h1 := h0.step (.retrieve (by decide))
  have h2 := h1.step .receive
  have h3 := h2.step (.retrieve (by decide))
  have h4 := h3.step .receive
  have h5 := h4.step .retrieveNil
  have h6 := h5.step .quit
  refine ⟨_, h6, rfl, [pieFirst, utf8 "<S> apple\t2\napple pie\t1\napple tart\t1\npie </S>\t1\ntart </S>\t1\n".toList], by decide +kernel, rfl⟩

open Classical in
/-- A result of the sorting. -/
noncomputable def pieSort (d : Dict) : List Nat :=
  if d = ramDict (pieWords.map utf8) then [1, 3, 4, 0, 2] else (mphOrder_exists d).choose

theorem pieSort_ok (d : Dict) : MphOrder d (pieSort d) := by
  unfold pieSort
  split
  · rename_i h
    subst h
    exact ⟨by decide, by decide +kernel⟩
  · exact (mphOrder_exists d).choose_spec

theorem buildDictionary_le {r : Reader} {m n : Nat} (h : m ≤ n) {x} (hm : buildDictionary m r = some x) : buildDictionary n r = some x := by
  unfold buildDictionary at hm ⊢
  cases ha : (newScanner r).all scanLines m with
  | none => rw [ha] at hm; simp at hm
  | some p => rw [ha] at hm; rw [all_le h ha]; exact hm

theorem pie_stored : ∃ data, StoredModel markStart markEnd 2 pieCorpus (pieWords.map utf8) data := by
  obtain ⟨st, h1, h2, outs, h3, h4⟩ := pie_built
  obtain ⟨outs', first', e1, e2, h5⟩ := C71_trains pie_training h1 h2 (ord := fun _ l => l) (fun _ _ => .refl _)
  rw [h3] at e1; cases e1
  rw [h4] at e2; cases e2
  have hdel : ∀ b : Bytes, b ≠ [] → Delivers ⟨[b], .eof, false⟩ b := fun b hb => ⟨by simpa using hb, by simp, rfl⟩
  have hdel' : ∀ b : Bytes, ∃ r, Delivers r b := by
    intro b
    by_cases hb : b = []
    · exact ⟨⟨[], .eof, false⟩, by simp, by simp [hb], rfl⟩
    · exact ⟨_, hdel b hb⟩
  choose rd hrd using hdel'
  obtain ⟨words, ⟨n, w1⟩, w2⟩ := h5 ⟨[pieFirst], .eof, false⟩ (outs.map rd) (hdel _ (by decide)) (by
    rw [List.forall₂_map_left_iff, List.forall₂_same]; exact fun b _ => hrd b)
  have hd : buildDictionary 20 ⟨[pieFirst], .eof, false⟩ = some (.ok (pieWords.map utf8)) := by decide +kernel
  have : words = pieWords.map utf8 := by
    have a := w1 (max n 20) (by omega)
    rw [buildDictionary_le (by omega : 20 ≤ max n 20) hd] at a
    injection a with a; injection a with a
    exact a.symm
  subst this
  obtain ⟨data, _, h⟩ := w2 pieSort 100 pieSort_ok (by decide) (by
    rw [show pieSort (ramDict (pieWords.map utf8)) = [1, 3, 4, 0, 2] by unfold pieSort; rw [if_pos rfl]]
    decide +kernel)
  exact ⟨data, h⟩

theorem pie_known {w : List Char} : wordCount markStart markEnd pieCorpus [w] ≠ 0 ↔ w ∈ pieWords := by
  constructor
  · intro h
    obtain ⟨s, hs, _, _, hm⟩ := corpusCount_mem h
    rcases hm (utf8 w) (by simp) with h | h | h
    · rw [utf8_injective h]; decide
    · obtain ⟨s', hs', rfl⟩ := List.mem_map.1 hs
      have hw := mem_utf8.1 h
      simp only [pieCorpus, List.mem_cons, List.not_mem_nil, or_false] at hs'
      rcases hs' with rfl | rfl <;> simp only [List.mem_cons, List.not_mem_nil, or_false] at hw <;>
        rcases hw with rfl | rfl <;> decide
    · rw [utf8_injective h]; decide
  · revert w; decide +kernel

theorem pie_indexable : Indexable cliSpec fun w => wordCount markStart markEnd pieCorpus [w] := by
  refine ⟨?_, ?_, ?_⟩ <;> intro w hw <;> replace hw := pie_known.1 hw
  · revert w; unfold WordConf.Faithful; decide +kernel
  · revert w; decide +kernel
  · intro h
    clear h
    revert w; decide +kernel

/-- The documents fit. -/
def pieBytes : Nat :=
  match addDocuments ((wordDocs cliSpec pieWords).map fun x => (x.id, x.terms)) [] with
  | .error _ => 2 ^ 32
  | .ok ix =>
    match commitData toyRoaring (fun _ m => m) ix with
    | .error _ => 2 ^ 32
    | .ok (b, _) => b.length

theorem pie_size (b : Bytes) (hd : Header)
    (he : indexData toyRoaring (fun _ m => m) (suggestTokenizer asciiLower id cliConf) (ramDict (pieWords.map utf8)) = .ok (b, hd)) :
    b.length < 2 ^ 32 := by
  have hlen : pieBytes < 2 ^ 32 := by decide +kernel
  rw [indexData_words cli_describes (fun w hw => pie_indexable.faithful w (pie_known.2 hw))] at he
  unfold pieBytes at hlen
  split at he
  · cases he
  · rename_i ix hix
    rw [hix] at hlen
    simp only [he] at hlen
    exact hlen

/-- The alphabet of the words of pkg/lm/testdata/config-example.json. -/
def pieAlphabet : Alphabet := Alphabet.create id (["english".toList, "russian".toList, "numbers".toList, "-.".toList].map utf8)

theorem pieAlphabet_has : (fun x : Char => pieAlphabet.has x.toNat) = someLetters "-.".toList :=
  funext fun x => someLetters_has "-.".toList (by decide) x

theorem goodLast_of {last : List Char} (h : cliSpec.Faithful (cliSpec.wordText last)) (h' : cliSpec.Faithful (cliSpec.prefixText last))
    (hl : (cliSpec.grams (cliSpec.wordText last)).length ≤ 65535 ∧ (cliSpec.grams (cliSpec.prefixText last)).length ≤ 65535) :
    GoodLast cliSpec last := ⟨h, h', hl.1, hl.2⟩

/-- The hypotheses of C71 are met: the spell checker is built, "apple pi" is answered, and "pie" is among the corrections;
it followed "apple" once. -/
theorem pie_example : ∃ (data : Bytes) (G : Gob) (_ : G.Lawful) (sc : SpellChecker) (val : LMScore → ℚ),
    StoredModel markStart markEnd 2 pieCorpus (pieWords.map utf8) data ∧ AccurateLog val ∧
    buildSpellChecker toyRoaring G (fun _ m => m) (fun b => [b]) (fun b => [b]) id asciiLower id cliConf "words" pieAlphabet
      (pieWords.map utf8) data 2 (utf8 markStart) (utf8 markEnd) = .ok sc ∧
    (∃ ws, PredictReturns (f64Ops 0) val sc (utf8 "Apple pi".toList) 5 (1 / 2) (.ok ws)) ∧
    ∀ ws, PredictReturns (f64Ops 0) val sc (utf8 "Apple pi".toList) 5 (1 / 2) (.ok ws) → utf8 "pie".toList ∈ ws := by
  obtain ⟨data, hst⟩ := pie_stored
  obtain ⟨G, LG⟩ := gob_contract_satisfiable
  obtain ⟨val, hval⟩ := accurateLog_exists
  obtain ⟨sc, hb⟩ := C71_builds (name := "words") (a := pieAlphabet) pie_training hst toyLawful LG (iorder := fun _ m => m) (fun _ _ => .refl _)
    (sd := fun b => [b]) (by simp) (sh := fun b => [b]) (by simp) (msort := id) (fun _ => .refl _) cli_describes pie_indexable pie_size
  have hq : maximalRuns (fun x => pieAlphabet.has x.toNat) (trim ' ' ("Apple pi".toList.map cliSpec.lower)) =
      ["apple".toList] ++ ["pi".toList] := by
    rw [pieAlphabet_has]; decide +kernel
  have hl : GoodLast cliSpec "pi".toList := by
    refine goodLast_of ?_ ?_ ?_ <;> (try unfold WordConf.Faithful) <;> decide +kernel
  refine ⟨data, G, LG, sc, val, hst, hval, hb, ?_, ?_⟩
  · have := C71_answers_partial pie_training hst toyLawful LG (iorder := fun _ m => m) (fun _ _ => .refl _)
      (sd := fun b => [b]) (by simp) (sh := fun b => [b]) (by simp) (msort := id) (fun _ => .refl _) cli_describes pie_indexable pie_size
      hb hq hl (val := val) (oob := 0) (α := 1 / 2) (by norm_num) (by norm_num) (K := 5) (by decide)
      ⟨"pie".toList, by decide +kernel, by decide +kernel⟩
    exact this.2.2.2
  · intro ws hr
    obtain ⟨ws', e, h⟩ := (C71_corrections_partial pie_training hst toyLawful LG (iorder := fun _ m => m) (fun _ _ => .refl _)
      (sd := fun b => [b]) (by simp) (sh := fun b => [b]) (by simp) (msort := id) (fun _ => .refl _) cli_describes pie_indexable pie_size
      hb hq hl (oob := 0) (α := 1 / 2) (by norm_num) (by norm_num) (K := 5) (by decide) hval hr).2 (by decide) (by decide)
    cases e
    refine List.mem_map_of_mem ?_
    have hc : cliSpec.completes "pi".toList "pie".toList := by
      unfold WordConf.completes; decide +kernel
    rcases h.completions "pie".toList (by decide +kernel) hc with h' | ⟨h1, _⟩
    · exact h'
    · -- five of five known words: pie is among them
      have hsub : ws'.Subperm pieWords := h.nodup.subperm fun w hw => pie_known.1 (h.sound w hw).1
      have : ws'.Perm pieWords := hsub.perm_of_length_le (by simpa [pieWords] using h1)
      exact this.mem_iff.2 (by decide)

/-! ### C72 -/

section
variable {start fin : List Char} {order : Nat} {corpus : List (List (List Char))}
  {bwords : List Bytes} {data : Bytes} {ρ : Roaring} {G : Gob} {iorder : Nat → TermMap → TermMap}
  {sd sh : Bytes → List Bytes} {msort : List (PList ρ) → List (PList ρ)} {lower : Nat → Nat} {asort : List Alphabet → List Alphabet}
  {d : TokenConf} {c : WordConf} {name : String} {a : Alphabet}
  (hT : Training start fin order corpus) (hm : StoredModel start fin order corpus bwords data)
    (L : ρ.Lawful) (LG : G.Lawful) (ho : ∀ i m, (iorder i m).Perm m) (hsd : ∀ b, (sd b).flatten = b)
    (hsh : ∀ b, (sh b).flatten = b) (hs : ∀ r, (msort r).Perm r) (hdc : Describes lower asort d c)
    (hI : Indexable c fun w => wordCount start fin corpus [w])
    (hsize : ∀ b hd, indexData ρ iorder (suggestTokenizer lower asort d) (ramDict bwords) = .ok (b, hd) → b.length < 2 ^ 32)
  {sc : SpellChecker}
  (hb : buildSpellChecker ρ G iorder sd sh msort lower asort d name a bwords data order (utf8 start) (utf8 fin) = .ok sc)
  {query : List Char} {seq : List (List Char)} {last : List Char}
  (hq : maximalRuns (fun x => a.has x.toNat) (trim ' ' (query.map c.lower)) = seq ++ [last]) (hlast : GoodLast c last)
  {val : LMScore → ℚ} {oob : Int} {α : ℚ} (h0 : 1 / 2 ^ 20 ≤ α) (h1 : α ≤ 1) {K : Nat} (hK : 1 ≤ K)

include hT hm L LG ho hsd hsh hs hdc hI hsize hb hq hlast h0 h1 hK in
/-- **C72** (partial) Every correction is a word of a sentence of the corpus — or the start or the end symbol.

Missing: the symbols are never offered. That is false, see `C72_symbol_offered`. -/
theorem C72_words_of_the_corpus_partial (hval : AccurateLog val) (hlen : seq.length ≠ order) {ws : List Bytes}
    (hr : PredictReturns (f64Ops oob) val sc (utf8 query) K α (.ok ws)) :
    ∀ w ∈ ws, (∃ s ∈ corpus, ∃ x ∈ s, w = utf8 x) ∨ w = utf8 start ∨ w = utf8 fin := by
  have key : ∀ w, wordCount start fin corpus [w] ≠ 0 → (∃ s ∈ corpus, ∃ x ∈ s, utf8 w = utf8 x) ∨ utf8 w = utf8 start ∨ utf8 w = utf8 fin := by
    intro w hw
    obtain ⟨s, hs, _, _, hm⟩ := corpusCount_mem hw
    rcases hm (utf8 w) (by simp) with h | h | h
    · exact .inr (.inl h)
    · obtain ⟨s', hs', rfl⟩ := List.mem_map.1 hs
      exact .inl ⟨s', hs', w, mem_utf8.1 h, rfl⟩
    · exact .inr (.inr h)
  have hc := C71_corrections_partial hT hm L LG ho hsd hsh hs hdc hI hsize hb hq hlast h0 h1 hK hval hr
  by_cases hs : seq = []
  · obtain ⟨ws', x, y, e, h⟩ := hc.1 hs
    cases e
    intro w hw
    obtain ⟨v, hv, rfl⟩ := List.mem_map.1 hw
    rw [h.parts] at hv
    rcases List.mem_append.1 hv with hv | hv
    · exact key v (h.completed v hv).1
    · exact key v (h.resembles v hv).1
  · obtain ⟨ws', e, h⟩ := hc.2 hs hlen
    cases e
    intro w hw
    obtain ⟨v, hv, rfl⟩ := List.mem_map.1 hw
    exact key v (h.sound v hv).1

end

/-- **C72** is false: with the configuration of the command line (cmd/spellchecker/cmd/eval.go) and the alphabet of
pkg/lm/testdata/config-example.json, the spell checker of the corpus "apple pie", "apple tart" offers the start symbol
"<S>" as a correction of "-s". -/
theorem C72_symbol_offered : ∃ (data : Bytes) (G : Gob) (_ : G.Lawful) (sc : SpellChecker) (val : LMScore → ℚ),
    StoredModel markStart markEnd 2 pieCorpus (pieWords.map utf8) data ∧ AccurateLog val ∧
    buildSpellChecker toyRoaring G (fun _ m => m) (fun b => [b]) (fun b => [b]) id asciiLower id cliConf "words" pieAlphabet
      (pieWords.map utf8) data 2 (utf8 markStart) (utf8 markEnd) = .ok sc ∧
    (∃ ws, PredictReturns (f64Ops 0) val sc (utf8 "-s".toList) 5 (1 / 2) (.ok ws)) ∧
    ∀ ws, PredictReturns (f64Ops 0) val sc (utf8 "-s".toList) 5 (1 / 2) (.ok ws) → utf8 markStart ∈ ws := by
  obtain ⟨data, hst⟩ := pie_stored
  obtain ⟨G, LG⟩ := gob_contract_satisfiable
  obtain ⟨val, hval⟩ := accurateLog_exists
  obtain ⟨sc, hb⟩ := C71_builds (name := "words") (a := pieAlphabet) pie_training hst toyLawful LG (iorder := fun _ m => m) (fun _ _ => .refl _)
    (sd := fun b => [b]) (by simp) (sh := fun b => [b]) (by simp) (msort := id) (fun _ => .refl _) cli_describes pie_indexable pie_size
  have hq : maximalRuns (fun x => pieAlphabet.has x.toNat) (trim ' ' ("-s".toList.map cliSpec.lower)) = [] ++ ["-s".toList] := by
    rw [pieAlphabet_has]; decide +kernel
  have hl : GoodLast cliSpec "-s".toList := by
    refine goodLast_of ?_ ?_ ?_ <;> (try unfold WordConf.Faithful) <;> decide +kernel
  refine ⟨data, G, LG, sc, val, hst, hval, hb, ?_, ?_⟩
  · have := C71_answers_partial pie_training hst toyLawful LG (iorder := fun _ m => m) (fun _ _ => .refl _)
      (sd := fun b => [b]) (by simp) (sh := fun b => [b]) (by simp) (msort := id) (fun _ => .refl _) cli_describes pie_indexable pie_size
      hb hq hl (val := val) (oob := 0) (α := 1 / 2) (by norm_num) (by norm_num) (K := 5) (by decide)
      ⟨"pie".toList, by decide +kernel, by decide +kernel⟩
    exact this.2.2.2
  · intro ws hr
    obtain ⟨ws', x, y, e, h⟩ := (C71_corrections_partial pie_training hst toyLawful LG (iorder := fun _ m => m) (fun _ _ => .refl _)
      (sd := fun b => [b]) (by simp) (sh := fun b => [b]) (by simp) (msort := id) (fun _ => .refl _) cli_describes pie_indexable pie_size
      hb hq hl (oob := 0) (α := 1 / 2) (by norm_num) (by norm_num) (K := 5) (by decide) hval hr).1 rfl
    cases e
    refine List.mem_map_of_mem ?_
    -- "-s" completes "<S>": both have the n-gram "^$s"
    have hc : cliSpec.completes "-s".toList markStart := by
      unfold WordConf.completes; decide +kernel
    rcases h.completions markStart (by decide +kernel) hc with h' | ⟨h1, _⟩
    · rw [h.parts]; exact List.mem_append_left _ h'
    · -- five completions would be all words
      have hx : x.Nodup := (List.nodup_append.1 (h.parts ▸ h.nodup)).1
      have hsub : x.Subperm pieWords := hx.subperm fun w hw => pie_known.1 (h.completed w hw).1
      have : x.Perm pieWords := hsub.perm_of_length_le (by simpa [pieWords] using h1.ge)
      rw [h.parts]
      exact List.mem_append_left _ (this.mem_iff.2 (by decide))

end Verif.Props
