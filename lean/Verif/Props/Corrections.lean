import Verif.Proofs.Corrections
import Verif.Model.SpellBuild
import Verif.Props.LMPipeline
import Mathlib.Analysis.SpecialFunctions.Log.Deriv
/-!
Property theorems C71: the spell checker trained on a corpus, from the sentences of the corpus to the corrections of a query
(pkg/lm, pkg/suggest, pkg/spellchecker, internal/spellchecker/dep), in the float64 arithmetic of C66.

`StoredModel start fin order corpus words data` — counting the n-grams of the corpus, writing the n-gram files and storing the
binary model may give the dictionary `words` and the binary file `data` (any schedule of Build, any iteration order of maps,
any way the files are delivered, any result of the sorting inside the hash table).
`buildSpellChecker …` (Verif/Model/SpellBuild.lean) — the model of `BuildSpellChecker`.
`Corrections`, `FirstWordCorrections`, `wordCount`, `contextWords` — Verif/Spec/Corrections.lean.
-/
namespace Verif.Props
open Verif Spec Verif.WordSearch Verif.Correct Verif.NFiles Verif.CFiles

/-- A corpus a model can be trained on (the limits of C63), with an order from 2 to 255. -/
structure Training (start fin : List Char) (order : Nat) (corpus : List (List (List Char))) : Prop where
  good : GoodCorpus (utf8 start) (utf8 fin) order (corpus.map fun s => s.map utf8)
  symbols : start ≠ [] ∧ fin ≠ []
  words : ∀ s ∈ corpus, [] ∉ s
  one : ∃ s ∈ corpus, s ≠ []
  order2 : 2 ≤ order
  order255 : order < 256
  size : corpusTokens (corpus.map fun s => s.map utf8) < 2 ^ 28

/-- `words` and `data` are what counting the n-grams of the corpus, writing the n-gram files and
`StoreBinaryLMFromGoogleFormat` may give. -/
def StoredModel (start fin : List Char) (order : Nat) (corpus : List (List (List Char))) (words : List Bytes) (data : Bytes) : Prop :=
  ∃ (st : BuildState) (ord : List Bytes → List (Nat × CTNode) → List (Nat × CTNode)) (outs : List Bytes) (first : Bytes)
    (r : Reader) (rs : List Reader) (mphSort : Dict → List Nat) (mphFuel : Nat),
    BuildReachable (utf8 start) (utf8 fin) order (corpus.map fun s => s.map utf8) st ∧ st.returned = true ∧ AnyOrder ord ∧
    nGramWrite order st.trie ord = .ok outs ∧ outs[0]? = some first ∧ Delivers r first ∧ List.Forall₂ Delivers rs outs ∧
    (∀ d, MphOrder d (mphSort d)) ∧ mphFuel < 2 ^ 31 ∧
    ∃ n, ∀ fuel, n ≤ fuel → storeBinaryLM mphSort mphFuel fuel r rs = some (.ok (words, data))

/-- `val` gives the numbers of the scores with the accuracy of 2^-34 (`math.Log` of the quotient is far more accurate), and
-100 for an unknown phrase. -/
structure AccurateLog (val : LMScore → ℚ) : Prop where
  log : ∀ n d : Nat, 0 < n → n ≤ d → d < 2 ^ 32 → |(val (.ratio 0 n d) : ℝ) - Real.log (n / d)| ≤ 1 / 2 ^ 34
  unknown : val .unknown = -100

theorem AccurateLog.lt {val : LMScore → ℚ} (h : AccurateLog val) {n m d : Nat} (hn : 0 < n) (hnm : n < m) (hmd : m ≤ d)
    (hd : d < 2 ^ 32) : val (.ratio 0 n d) < val (.ratio 0 m d) := by
  have h1 := abs_le.1 (h.log n d hn (by omega) hd)
  have h2 := abs_le.1 (h.log m d (by omega) hmd hd)
  have hn' : (0 : ℝ) < n := by exact_mod_cast hn
  have hm' : (0 : ℝ) < m := by exact_mod_cast (by omega : 0 < m)
  have hd' : (0 : ℝ) < d := by exact_mod_cast (by omega : 0 < d)
  have e : Real.log (m / d) - Real.log (n / d) = Real.log (m / n) := by
    rw [Real.log_div hm'.ne' hd'.ne', Real.log_div hn'.ne' hd'.ne', Real.log_div hm'.ne' hn'.ne']; ring
  have h3 := Real.one_sub_inv_le_log_of_pos (x := (m : ℝ) / n) (by positivity)
  have h4 : 1 / 2 ^ 32 ≤ 1 - ((m : ℝ) / n)⁻¹ := by
    have h5 : (n : ℝ) + 1 ≤ m := by exact_mod_cast hnm
    have h6 : (m : ℝ) ≤ 2 ^ 32 := by exact_mod_cast (by omega : m ≤ 2 ^ 32)
    rw [inv_div, one_sub_div hm'.ne', div_le_div_iff₀ (by norm_num) hm']
    nlinarith
  have : (val (.ratio 0 n d) : ℝ) < val (.ratio 0 m d) := by
    norm_num at h1 h2 h3 h4
    linarith [h1.1, h1.2, h2.1, h2.2]
  exact_mod_cast this

theorem AccurateLog.unknown_lt {val : LMScore → ℚ} (h : AccurateLog val) {m d : Nat} (hm : 0 < m) (hmd : m ≤ d)
    (hd : d < 2 ^ 32) : val .unknown < val (.ratio 0 m d) := by
  have h2 := abs_le.1 (h.log m d hm hmd hd)
  have hm' : (1 : ℝ) ≤ m := by exact_mod_cast hm
  have hd' : (0 : ℝ) < d := by exact_mod_cast (by omega : 0 < d)
  have hd2 : (d : ℝ) ≤ 2 ^ 32 := by exact_mod_cast hd.le
  have h3 : Real.log d ≤ 32 := by
    have h4 : Real.log d ≤ Real.log (2 ^ 32) := Real.log_le_log hd' hd2
    rw [Real.log_pow] at h4
    have := Real.log_le_sub_one_of_pos (x := 2) (by norm_num)
    push_cast at h4
    linarith
  have h5 : 0 ≤ Real.log m := Real.log_nonneg hm'
  rw [Real.log_div (by positivity) hd'.ne'] at h2
  have : ((val .unknown : ℚ) : ℝ) < val (.ratio 0 m d) := by
    rw [h.unknown]
    norm_num at h2
    push_cast
    linarith [h2.1, h2.2]
  exact_mod_cast this

/-- Such a function exists. -/
theorem accurateLog_exists : ∃ val, AccurateLog val := by
  have : ∀ x : ℝ, ∃ q : ℚ, |(q : ℝ) - x| ≤ 1 / 2 ^ 34 := by
    intro x
    obtain ⟨q, h1, h2⟩ := exists_rat_btwn (show x < x + 1 / 2 ^ 34 by norm_num)
    exact ⟨q, abs_le.2 ⟨by norm_num at *; linarith, by linarith⟩⟩
  choose f hf using this
  exact ⟨fun s => match s with | .unknown => -100 | .ratio _ n d => f (Real.log (n / d)), fun n d _ _ _ => hf _, rfl⟩

theorem utf8_map_inj {a b : List (List Char)} (h : a.map utf8 = b.map utf8) : a = b :=
  (List.map_injective_iff.2 fun _ _ e => utf8_injective e) h

theorem mem_utf8 {w : List Char} {l : List (List Char)} : utf8 w ∈ l.map utf8 ↔ w ∈ l := by
  constructor
  · intro h
    obtain ⟨x, hx, e⟩ := List.mem_map.1 h
    rwa [← utf8_injective e]
  · exact List.mem_map_of_mem

theorem utf8_ne_nil {w : List Char} (h : w ≠ []) : utf8 w ≠ [] := by
  intro e
  exact h (utf8_injective (e.trans rfl))

section
variable {start fin : List Char} {order : Nat} {corpus : List (List (List Char))} (hT : Training start fin order corpus)

include hT in
theorem training_words : utf8 start ≠ [] ∧ utf8 fin ≠ [] ∧ ∀ s ∈ corpus.map fun s => s.map utf8, [] ∉ s := by
  refine ⟨utf8_ne_nil hT.symbols.1, utf8_ne_nil hT.symbols.2, ?_⟩
  intro s hs h
  obtain ⟨s', hs', rfl⟩ := List.mem_map.1 hs
  obtain ⟨w, hw, e⟩ := List.mem_map.1 h
  have : w = [] := utf8_injective (e.trans rfl)
  subst this
  exact hT.words s' hs' hw

include hT in
theorem training_one : ∃ s ∈ corpus.map fun s => s.map utf8, s ≠ [] := by
  obtain ⟨s, hs, hne⟩ := hT.one
  exact ⟨_, List.mem_map_of_mem hs, by simpa using hne⟩

/-- The known words are words. -/
theorem known_words {words : List Bytes}
    (h : ∀ w, w ∈ words ↔ corpusCount (utf8 start) (utf8 fin) (corpus.map fun s => s.map utf8) [w] ≠ 0) :
    ∃ ws : List (List Char), words = ws.map utf8 := by
  have : ∀ w ∈ words, ∃ x, utf8 x = w := by
    intro w hw
    obtain ⟨s, hs, _, _, hm⟩ := corpusCount_mem ((h w).1 hw)
    rcases hm w (by simp) with rfl | h | rfl
    · exact ⟨_, rfl⟩
    · obtain ⟨s', _, rfl⟩ := List.mem_map.1 hs
      obtain ⟨x, _, rfl⟩ := List.mem_map.1 h
      exact ⟨x, rfl⟩
    · exact ⟨_, rfl⟩
  clear h
  induction words with
  | nil => exact ⟨[], rfl⟩
  | cons w l ih =>
    obtain ⟨ws, rfl⟩ := ih fun w hw => this w (by simp [hw])
    obtain ⟨x, rfl⟩ := this w (by simp)
    exact ⟨x :: ws, rfl⟩

include hT in
/-- **C71**, training: if the building of the hash table ends, the model is stored — for every schedule, etc. -/
theorem C71_trains {st : BuildState}
    (hr : BuildReachable (utf8 start) (utf8 fin) order (corpus.map fun s => s.map utf8) st) (hret : st.returned = true)
    {ord : List Bytes → List (Nat × CTNode) → List (Nat × CTNode)} (ho : AnyOrder ord) :
    ∃ outs first, nGramWrite order st.trie ord = .ok outs ∧ outs[0]? = some first ∧
      ∀ (r : Reader) (rs : List Reader), Delivers r first → List.Forall₂ Delivers rs outs →
      ∃ words : List Bytes, (∃ n, ∀ fuel, n ≤ fuel → buildDictionary fuel r = some (.ok words)) ∧
        ∀ (mphSort : Dict → List Nat) (mphFuel : Nat), (∀ d, MphOrder d (mphSort d)) → mphFuel < 2 ^ 31 →
          mphBuild (ramDict words) (mphSort (ramDict words)) mphFuel ≠ none →
          ∃ data, (∃ n, ∀ fuel, n ≤ fuel → storeBinaryLM mphSort mphFuel fuel r rs = some (.ok (words, data))) ∧
            StoredModel start fin order corpus words data := by
  obtain ⟨outs, first, h1, h2, h3⟩ := C63_stored_language_model hT.good (training_words hT) (training_one hT) hT.order255 hT.size hr hret ho
  refine ⟨outs, first, h1, h2, fun r rs d1 d2 => ?_⟩
  obtain ⟨words, _, _, _, w4, w5⟩ := h3 r rs d1 d2
  refine ⟨words, w4, fun mphSort mphFuel hO hf hm => ?_⟩
  cases hmm : mphBuild (ramDict words) (mphSort (ramDict words)) mphFuel with
  | none => exact absurd hmm hm
  | some m =>
    obtain ⟨data, lm, get, hst, _⟩ := w5 mphSort mphFuel m (hO _) hf hmm
    exact ⟨data, hst, st, ord, outs, first, r, rs, mphSort, mphFuel, hr, hret, ho, h1, h2, d1, d2, hO, hf, hst⟩

/-- What is retrieved from a stored model. -/
theorem stored_retrieved (hT : Training start fin order corpus) {bwords : List Bytes} {data : Bytes} (h : StoredModel start fin order corpus bwords data) :
    ∃ words : List (List Char), bwords = words.map utf8 ∧ words.Nodup ∧ (∀ w, w ∈ words ↔ wordCount start fin corpus [w] ≠ 0) ∧
      (words.Pairwise fun v w => wordCount start fin corpus [w] ≤ wordCount start fin corpus [v]) ∧ words.length < 2 ^ 28 ∧
      ∃ (lm : LangModel) (getWordID : Bytes → Except Err Nat) (id : Bytes → Nat) (files : List (List (List Nat × Nat))) (startID : Nat),
        retrieveLM bwords data order (utf8 start) (utf8 fin) = .ok (lm, getWordID) ∧
        (∀ w, getWordID w = .ok (id w) ∧ id w < 2 ^ 32) ∧ (∀ (i : Nat) w, words[i]? = some w → id (utf8 w) = i) ∧
        id (utf8 start) = startID ∧ CorpusFiles files ∧ files.length = order ∧
        (∃ vs fin', readModel files = .ok vs ∧ lm = ⟨vs, files.length, startID, fin'⟩ ∧ fin' = id (utf8 fin)) ∧
        (∀ g : List (List Char), g ≠ [] → g.length ≤ order →
          gramCount files (g.map fun w => id (utf8 w)) = wordCount start fin corpus g) ∧
        corpusSize files = corpusTokens (corpus.map fun s => s.map utf8) := by
  obtain ⟨st, ord, outs, first, r, rs, mphSort, mphFuel, hr, hret, ho, g1, g2, d1, d2, hO, hf, n, hn⟩ := h
  obtain ⟨outs', first', h1, h2, h3⟩ := C63_stored_language_model hT.good (training_words hT) (training_one hT) hT.order255 hT.size hr hret ho
  rw [g1] at h1; cases h1
  rw [g2] at h2; cases h2
  obtain ⟨words', w1, w2, w3, ⟨n2, w4⟩, w5⟩ := h3 r rs d1 d2
  have hs := hn (max n n2) (by omega)
  have hs' := hs
  unfold storeBinaryLM at hs'
  rw [w4 _ (by omega)] at hs'
  simp only at hs'
  cases hmm : mphBuild (ramDict words') (mphSort (ramDict words')) mphFuel with
  | none => rw [hmm] at hs'; cases hs'
  | some m =>
  obtain ⟨data', lm, get, ⟨n3, hst⟩, r1, r2, r3, r4, r5, r6, files, f1, f2, f3, f4, f5⟩ := w5 mphSort mphFuel m (hO _) hf hmm
  have e : (bwords, data) = (words', data') := by
    have a := hn (max n n3) (by omega)
    rw [hst _ (by omega)] at a
    injection a with a; injection a with a
    exact a.symm
  cases e
  obtain ⟨words, rfl⟩ := known_words w2
  have hwl : words.length < 2 ^ 28 := by
    have h1 : ((words.map utf8).map fun w => [w]).Nodup := w1.map fun a b h => by simpa using h
    have h2 := corpusCount_le (start := utf8 start) (fin := utf8 fin) (corpus.map fun s => s.map utf8) (n := 1) (Nat.le_refl 1) h1 (by
      intro p hp; obtain ⟨w, _, rfl⟩ := List.mem_map.1 hp; rfl)
    have h3 := length_le_sum (((words.map utf8).map fun w => [w]).map (corpusCount (utf8 start) (utf8 fin) (corpus.map fun s => s.map utf8))) (by
      intro x hx
      obtain ⟨p, hp, rfl⟩ := List.mem_map.1 hx
      obtain ⟨w, hw, rfl⟩ := List.mem_map.1 hp
      exact (w2 w).1 hw)
    simp only [List.length_map] at h3
    have := hT.size
    omega
  have hget : ∀ w, ∃ i, get w = .ok i ∧ i < 2 ^ 32 := by
    intro w
    by_cases hw : w ∈ words.map utf8
    · obtain ⟨i, hi⟩ := List.getElem?_of_mem hw
      have := (List.getElem?_eq_some_iff.1 hi).1
      rw [List.length_map] at this
      exact ⟨i, r2 i w hi, by omega⟩
    · exact ⟨_, r3 w hw, by decide⟩
  choose id hid using hget
  refine ⟨words, rfl, List.Nodup.of_map _ w1, ?_, ?_, hwl, lm, get, id, files, id (utf8 start), r1, hid, ?_, rfl, f2, f3, ?_, ?_, f4⟩
  · intro w
    rw [← mem_utf8, w2]
    rfl
  · have : (words.map utf8).Pairwise fun v w => corpusCount (utf8 start) (utf8 fin) (corpus.map fun s => s.map utf8) [w] ≤
        corpusCount (utf8 start) (utf8 fin) (corpus.map fun s => s.map utf8) [v] := by
      refine w3.imp ?_
      rintro a b (h | ⟨h, _⟩) <;> omega
    rw [List.pairwise_map] at this
    exact this
  · intro i w hi
    have a := r2 i (utf8 w) (by simp [hi])
    rw [(hid _).1] at a
    injection a
  · refine ⟨lm.vectors, lm.endSymbol, f1, ?_⟩
    have a := r5
    rw [(hid _).1] at a
    injection a with a
    have b := r6
    rw [(hid _).1] at b
    injection b with b
    obtain ⟨vs, o, s, f⟩ := lm
    simp only at a b r4 ⊢
    rw [f3, r4, a, b]
    exact ⟨rfl, rfl⟩
  · intro g hg hl
    have := f5 (g.map utf8) (g.map fun w => id (utf8 w)) (by simpa using hg) (by simpa using hl) (by
      rw [List.forall₂_map_left_iff, List.forall₂_map_right_iff, List.forall₂_same]
      exact fun w _ => (hid _).1)
    exact this

/-- The dictionary fits the index description. -/
structure Indexable (c : WordConf) (known : List Char → Nat) : Prop where
  faithful : ∀ w, known w ≠ 0 → c.Faithful (c.wordText w)
  small : ∀ w, known w ≠ 0 → (c.grams (c.wordText w)).length ≤ 32767
  first : ∀ w, known w ≠ 0 → (∀ v, known v ≤ known w) → c.grams (c.wordText w) ≠ []

theorem score_order {val : LMScore → ℚ} (hval : AccurateLog val) {files : List (List (List Nat × Nat))} {ctx : List Nat}
    (hctx : gramCount files ctx < 2 ^ 32) {i j : Nat} (hi : gramCount files (ctx ++ [i]) ≤ gramCount files ctx)
    (h : val (followScore files ctx i) ≤ val (followScore files ctx j)) :
    gramCount files (ctx ++ [i]) ≤ gramCount files (ctx ++ [j]) := by
  by_contra hlt
  push Not at hlt
  unfold followScore at h
  rw [if_pos (by omega : 0 < gramCount files (ctx ++ [i]))] at h
  split at h
  · rename_i hj
    exact absurd h (not_le.2 (hval.lt hj hlt hi hctx))
  · exact absurd h (not_le.2 (hval.unknown_lt (by omega) hi hctx))

variable {bwords : List Bytes} {data : Bytes} {ρ : Roaring} {G : Gob} {iorder : Nat → TermMap → TermMap}
  {sd sh : Bytes → List Bytes} {msort : List (PList ρ) → List (PList ρ)} {lower : Nat → Nat} {asort : List Alphabet → List Alphabet}
  {d : TokenConf} {c : WordConf} {name : String} {a : Alphabet}

theorem first_most_frequent {words : List (List Char)} {f : List Char → Nat} (hp : words.Pairwise fun v w => f w ≤ f v)
    (hm : ∀ w, w ∈ words ↔ f w ≠ 0) {w : List Char} (hw : words.head? = some w) : f w ≠ 0 ∧ ∀ v, f v ≤ f w := by
  cases words with
  | nil => cases hw
  | cons x l =>
    cases hw
    refine ⟨(hm _).1 (by simp), fun v => ?_⟩
    by_cases h0 : f v = 0
    · omega
    rcases List.mem_cons.1 ((hm v).2 h0) with rfl | h
    · exact Nat.le_refl _
    · exact (List.pairwise_cons.1 hp).1 v h

/-- Building the spell checker from a stored model. -/
theorem spell_built (hT : Training start fin order corpus) (hm : StoredModel start fin order corpus bwords data)
    (L : ρ.Lawful) (LG : G.Lawful) (ho : ∀ i m, (iorder i m).Perm m) (hsd : ∀ b, (sd b).flatten = b)
    (hsh : ∀ b, (sh b).flatten = b) (hs : ∀ r, (msort r).Perm r) (hdc : Describes lower asort d c)
    (hI : Indexable c fun w => wordCount start fin corpus [w])
    (hsize : ∀ b hd, indexData ρ iorder (suggestTokenizer lower asort d) (ramDict bwords) = .ok (b, hd) → b.length < 2 ^ 32) :
    ∃ sc, buildSpellChecker ρ G iorder sd sh msort lower asort d name a bwords data order (utf8 start) (utf8 fin) = .ok sc ∧
      (∀ query : List Char, sc.tokenize (utf8 query) =
        (maximalRuns (fun x => a.has x.toNat) (trim ' ' (query.map c.lower))).map utf8) ∧
      ∃ words : List (List Char), bwords = words.map utf8 ∧ (∀ w, w ∈ words ↔ wordCount start fin corpus [w] ≠ 0) ∧
        (words.Pairwise fun v w => wordCount start fin corpus [w] ≤ wordCount start fin corpus [v]) ∧
        (∀ (query : Bytes), (∀ w, LastWord sc query w → ∃ last, w = utf8 last ∧ c.Faithful (c.wordText last) ∧
            c.Faithful (c.prefixText last) ∧ (c.grams (c.wordText last)).length ≤ 65535 ∧
            (c.grams (c.prefixText last)).length ≤ 65535) → WordChecker sc c words query) ∧
        ∃ (id : Bytes → Nat) (files : List (List (List Nat × Nat))), SpellModel sc files id (id (utf8 start)) ∧
          files.length = order ∧ (∀ (i : Nat) w, words[i]? = some w → id (utf8 w) = i) ∧
          ∀ g : List (List Char), g ≠ [] → g.length ≤ order →
            gramCount files (g.map fun w => id (utf8 w)) = wordCount start fin corpus g := by
  obtain ⟨words, rfl, w1, w2, w3, w4, lm, get, id, files, startID, r1, r2, r3, rfl, r5, r6, r7, r8, _⟩ := stored_retrieved hT hm
  have hf : ∀ w ∈ words, c.Faithful (c.wordText w) := fun w hw => hI.faithful w ((w2 w).1 hw)
  have hgood : GoodDocs (wordDocs c words) := wordDocs_good (by omega) fun w hw => by
    have := hI.small w ((w2 w).1 hw)
    omega
  have hfirst : FirstNonempty (wordDocs c words) := wordDocs_first fun w hw => by
    obtain ⟨h1, h2⟩ := first_most_frequent w3 w2 hw
    exact hI.first w h1 h2
  obtain ⟨oi, hb, hoi⟩ := wordIndex_ram L LG hdc hf hgood hfirst ho hsize name hsd hsh
  let sc : SpellChecker :=
    { ρ := ρ, sort := msort, index := oi, prefixGrams := termsOf (autocompleteTokenizer lower asort d),
      grams := termsOf (suggestTokenizer lower asort d), model := lm, wordID := get, tokenize := queryWords lower a,
      dict := (ramDict (words.map utf8)).get }
  refine ⟨sc, ?_, ?_, words, rfl, w2, w3, ?_, id, files, ?_, r6, r3, r8⟩
  · unfold buildSpellChecker
    rw [r1]
    simp only
    rw [hb]
  · intro query
    show queryWords lower a (utf8 query) = _
    unfold queryWords
    rw [C38_lm_words a lower c.lower hdc.lower query]
  · intro query hq
    have hg : ∀ w, c.Faithful (c.wordText w) → termsOf (suggestTokenizer lower asort d) (utf8 w) = (c.grams (c.wordText w)).map term := by
      intro w hw
      unfold termsOf
      rw [suggestTokens hdc hw]
      simp [term, Function.comp_def]
    have hp : ∀ w, c.Faithful (c.prefixText w) → termsOf (autocompleteTokenizer lower asort d) (utf8 w) = (c.grams (c.prefixText w)).map term := by
      intro w hw
      unfold termsOf
      rw [autocompleteTokens hdc hw]
      simp [term, Function.comp_def]
    refine ⟨⟨⟨L⟩, ⟨G, LG, wordIndex_indexOf hdc hf hoi⟩, hgood, hfirst, hs, ?_, ?_, ?_⟩, fun w hw => hI.small w ((w2 w).1 hw), w1,
      fun k w h => dict_get h, hg, hp⟩
    · intro w hw
      obtain ⟨last, rfl, _, h2, _, h4⟩ := hq w hw
      show (termsOf (autocompleteTokenizer lower asort d) (utf8 last)).Nodup ∧
        (termsOf (autocompleteTokenizer lower asort d) (utf8 last)).length ≤ 65535
      rw [hp last h2]
      exact ⟨(grams_nodup _).map_on fun _ _ _ _ e => term_inj e, by rw [List.length_map]; exact h4⟩
    · intro w hw
      obtain ⟨last, rfl, h1, _, h3, _⟩ := hq w hw
      show (termsOf (suggestTokenizer lower asort d) (utf8 last)).Nodup ∧
        (termsOf (suggestTokenizer lower asort d) (utf8 last)).length ≤ 65535
      rw [hg last h1]
      exact ⟨(grams_nodup _).map_on fun _ _ _ _ e => term_inj e, by rw [List.length_map]; exact h3⟩
    · intro x hx
      obtain ⟨k, w, h, rfl⟩ := mem_wordDocs.1 hx
      have := hI.small w ((w2 w).1 (List.mem_of_getElem? h))
      simp only [wordDoc, List.length_map]
      omega
  · obtain ⟨vs, fin', h1, h2, _⟩ := r7
    refine ⟨r5, by rw [r6]; exact hT.order2, ⟨vs, fin', h1, h2⟩, (r2 _).2, r2⟩

section
variable (hT : Training start fin order corpus) (hm : StoredModel start fin order corpus bwords data)
    (L : ρ.Lawful) (LG : G.Lawful) (ho : ∀ i m, (iorder i m).Perm m) (hsd : ∀ b, (sd b).flatten = b)
    (hsh : ∀ b, (sh b).flatten = b) (hs : ∀ r, (msort r).Perm r) (hdc : Describes lower asort d c)
    (hI : Indexable c fun w => wordCount start fin corpus [w])
    (hsize : ∀ b hd, indexData ρ iorder (suggestTokenizer lower asort d) (ramDict bwords) = .ok (b, hd) → b.length < 2 ^ 32)

include hT hm L LG ho hsd hsh hs hdc hI hsize in
/-- **C71** The spell checker can be built from the stored model: any iteration order of maps, any split into writes. -/
theorem C71_builds :
    ∃ sc, buildSpellChecker ρ G iorder sd sh msort lower asort d name a bwords data order (utf8 start) (utf8 fin) = .ok sc := by
  obtain ⟨sc, hb, _⟩ := spell_built (name := name) (a := a) hT hm L LG ho hsd hsh hs hdc hI hsize
  exact ⟨sc, hb⟩

/-- The last word of a query fits the index description. -/
structure GoodLast (c : WordConf) (last : List Char) : Prop where
  whole : c.Faithful (c.wordText last)
  start : c.Faithful (c.prefixText last)
  few : (c.grams (c.wordText last)).length ≤ 65535
  fewStart : (c.grams (c.prefixText last)).length ≤ 65535

variable {sc : SpellChecker}
  (hb : buildSpellChecker ρ G iorder sd sh msort lower asort d name a bwords data order (utf8 start) (utf8 fin) = .ok sc)
  {query : List Char} {seq : List (List Char)} {last : List Char}
  (hq : maximalRuns (fun x => a.has x.toNat) (trim ' ' (query.map c.lower)) = seq ++ [last]) (hlast : GoodLast c last)
  {val : LMScore → ℚ} {oob : Int} {α : ℚ} (h0 : 1 / 2 ^ 20 ≤ α) (h1 : α ≤ 1) {K : Nat} (hK : 1 ≤ K)

include hT hm L LG ho hsd hsh hs hdc hI hsize hb hq hlast h0 h1 hK in
/-- **C71** The spell checker of a stored language model answers every query whose last word fits the index description as
the specification says: for a query of one word `FirstWordCorrections`; for several words — unless exactly `order` words
precede the last one, see C52 — `Corrections` with the numbers of occurrences after the preceding words.

Missing: exactly `order` preceding words (the wrong context is used, C52_wrong_context); at most K words (C50). -/
theorem C71_corrections_partial (hval : AccurateLog val) {r : Except Err (List Bytes)}
    (hr : PredictReturns (f64Ops oob) val sc (utf8 query) K α r) :
    (seq = [] → ∃ ws x y, r = .ok (ws.map utf8) ∧
      FirstWordCorrections c (fun w => wordCount start fin corpus [w] ≠ 0) (fun w => wordCount start fin corpus [w]) last α K ws x y) ∧
    (seq ≠ [] → seq.length ≠ order → ∃ ws, r = .ok (ws.map utf8) ∧
      Corrections c (fun w => wordCount start fin corpus [w] ≠ 0)
        (fun w => wordCount start fin corpus (contextWords order start seq ++ [w])) last α K ws) := by
  obtain ⟨sc', hb', htok, words, rfl, w2, w3, hwc, id, files, hsm, hlen, hid, hcount⟩ :=
    spell_built (name := name) (a := a) hT hm L LG ho hsd hsh hs hdc hI hsize
  rw [hb] at hb'; cases hb'
  obtain ⟨hf, hfp, hg, hgp⟩ := hlast
  have ht : sc.tokenize (utf8 query) = seq.map utf8 ++ [utf8 last] := by
    rw [htok, hq, List.map_append]; rfl
  have hw := hwc (utf8 query) (by
    rintro w ⟨seq', h⟩
    rw [ht] at h
    have := (List.append_inj' h rfl).2
    simp only [List.cons.injEq, and_true] at this
    exact ⟨last, this.symm, hf, hfp, hg, hgp⟩)
  have hknown : (fun w => wordCount start fin corpus [w] ≠ 0) = fun w => w ∈ words := by
    funext w; exact propext (w2 w).symm
  have hwl : ∀ k < words.length, k < 2 ^ 32 := by
    intro k hk
    obtain ⟨w, hk⟩ : ∃ w, words[k]? = some w := ⟨_, List.getElem?_eq_getElem hk⟩
    rw [← hid k w hk]
    exact (hsm.wordID _).2
  obtain ⟨next, n1, n2, n3, -⟩ := spell_scores (S := ℚ) hsm (seq.map utf8)
  rw [hknown]
  constructor
  · intro hne
    subst hne
    have : next = none := n2 rfl
    subst this
    refine corrections_first hw ht hf hfp n1 h0 h1 hK hr (s := val .unknown) (fun _ _ => rfl) ?_
    intro i j v w hv hw' hij
    rcases Nat.lt_or_eq_of_le hij with h | rfl
    · obtain ⟨hi, rfl⟩ := List.getElem?_eq_some_iff.1 hv
      obtain ⟨hj, rfl⟩ := List.getElem?_eq_some_iff.1 hw'
      exact (List.pairwise_iff_getElem.1 w3) i j hi hj h
    · rw [hv] at hw'
      cases hw'
      exact Nat.le_refl _
  · intro hne hl
    have hctx : recentWords files.length (id (utf8 start)) ((seq.map utf8).map id) =
        (contextWords order start seq).map fun w => id (utf8 w) := by
      unfold recentWords contextWords lastWords
      rw [hlen]
      simp only [List.length_map, List.map_map]
      split
      · simp [Function.comp_def]
      · rw [List.map_drop]; rfl
    have hclen : contextWords order start seq ≠ [] ∧ (contextWords order start seq).length + 1 ≤ order := by
      have := hT.order2
      have := List.length_pos_of_ne_nil hne
      unfold contextWords
      split
      · exact ⟨by simp, by simp only [List.length_cons]; omega⟩
      · rename_i h
        refine ⟨?_, by rw [List.length_drop]; omega⟩
        rw [← List.length_pos_iff, List.length_drop]; omega
    refine corrections_of_scores hw ht hf hfp n1 (fun k hk => n3 (by simpa using hne) (by rw [hlen]; simpa using hl) k (hwl k hk) val)
      h0 h1 hK hr ?_
    intro i j v w hv hw' hle
    rw [hctx] at hle
    have hgc : ∀ (k : Nat) u, words[k]? = some u → gramCount files ((contextWords order start seq).map (fun w => id (utf8 w)) ++ [k]) =
        wordCount start fin corpus (contextWords order start seq ++ [u]) := by
      intro k u hu
      rw [← hcount _ (by simp) (by simpa using hclen.2), List.map_append, List.map_cons, hid k u hu]
      rfl
    have hc0 := hcount (contextWords order start seq) hclen.1 (by omega)
    have := score_order hval (hsm.corpus.fits _) (i := i) (j := j) (by
      rw [hgc i v hv, hc0]
      have := corpusCount_dropLast (utf8 start) (utf8 fin) (corpus.map fun s => s.map utf8) ((contextWords order start seq ++ [v]).map utf8)
      rw [← List.map_dropLast, List.dropLast_concat] at this
      exact this) hle
    rwa [hgc i v hv, hgc j w hw'] at this

include hT hm L LG ho hsd hsh hs hdc hI hsize hb hq hlast h0 h1 hK in
/-- **C71** … and it does answer: if some known word has at least as many n-grams as the smallest length considered for the
last word, `Predict` cannot panic, block or run for ever.

Missing: the other last words, for which `Predict` can block or panic (C65). -/
theorem C71_answers_partial
    (hlong : ∃ w, wordCount start fin corpus [w] ≠ 0 ∧
      (cosineMetric (f64Ops oob)).minY α (c.grams (c.wordText last)).length ≤ (c.grams (c.wordText w)).length) :
    ¬ PredictPanics (f64Ops oob) val sc (utf8 query) K α ∧ ¬ PredictBlocks (f64Ops oob) val sc (utf8 query) K α ∧
    ¬ PredictRunsForever (f64Ops oob) val sc (utf8 query) K α ∧
    ∃ ws, PredictReturns (f64Ops oob) val sc (utf8 query) K α (.ok ws) := by
  obtain ⟨sc', hb', htok, words, rfl, w2, w3, hwc, id, files, hsm, hlen, hid, hcount⟩ :=
    spell_built (name := name) (a := a) hT hm L LG ho hsd hsh hs hdc hI hsize
  rw [hb] at hb'; cases hb'
  obtain ⟨hf, hfp, hg, hgp⟩ := hlast
  have ht : sc.tokenize (utf8 query) = seq.map utf8 ++ [utf8 last] := by
    rw [htok, hq, List.map_append]; rfl
  have hw := hwc (utf8 query) (by
    rintro w ⟨seq', h⟩
    rw [ht] at h
    have := (List.append_inj' h rfl).2
    simp only [List.cons.injEq, and_true] at this
    exact ⟨last, this.symm, hf, hfp, hg, hgp⟩)
  obtain ⟨w, hkw, hle⟩ := hlong
  obtain ⟨k, hk⟩ := List.getElem?_of_mem ((w2 w).2 hkw)
  exact predict_answers hw hsm ht hf h0 h1 hK ⟨k, w, hk, hle⟩

end
end
end Verif.Props
