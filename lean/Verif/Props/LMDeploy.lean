import Verif.Proofs.LMDeploy
import Verif.Props.WirePredict
/-!
Property theorems C97: from the text and the configuration file of a language model to the answers of the spell checker, through any
history of commands.

`CountCommand`, `BuildCommand` — one run of `lm ngram-count`, `lm build-lm` on the files; `History` — any commands with any
configurations, failing or interrupted or not, and changes of files by others; `startChecker` — the start of the spell checker
(Verif/Model/LMDeploy.lean). `SparesGrams`, `SparesModel`, `serviceWords` — Verif/Spec/LMDeploy.lean.
-/
namespace Verif.Props
open Verif Spec Verif.WordSearch Verif.Wire Verif.Conf Verif.Correct Verif.NFiles Verif.CFiles Verif.Corpus Verif.LMDeploy

/-- The tokenizer of the spell checker works on the words as `serviceWords` says. -/
theorem service_describes {lower : Nat → Nat} {lc : Char → Char} (hl : ∀ x : Char, lower x.toNat = (lc x).toNat)
    {sort : List Alphabet → List Alphabet} (hs : ∀ l, (sort l).Perm l) : Describes lower sort serviceIndex (serviceWords lc) := by
  have e : (["english", "russian", "numbers", "$^'"].map fun s => s.toUTF8.toList) =
      ["english".toList, "russian".toList, "numbers".toList, "$^'".toList].map utf8 := by decide +kernel
  have e1 : "$".toUTF8.toList = utf8 ['$'] := by decide +kernel
  have e2 : "^".toUTF8.toList = utf8 ['^'] := by decide +kernel
  refine ⟨rfl, e1, e2, e1, ?_, hl, show 1 ≤ 3 by decide, show 3 ≤ 8 by decide⟩
  intro x
  show (Alphabet.create sort (["english", "russian", "numbers", "$^'"].map fun s => s.toUTF8.toList)).has x.toNat = _
  rw [e]
  exact create_has hs _ x

theorem goodText_mono {T : CorpusConf} {lc : Char → Char} {text : Bytes} {B n m : Nat} (h : GoodText T lc text B n) (hnm : n ≤ m) :
    GoodText T lc text B m :=
  ⟨h.orderPos, h.letters, h.sep, Nat.lt_of_lt_of_le h.size hnm, h.sentences, h.words, h.symbols, h.lines⟩

theorem opened {fs : FileMap} {p : Place} {b : Bytes} (h : openInput fs p = some b) : fs p = some b ∧ b ≠ [] := by
  unfold openInput at h
  split at h
  · cases h
  · rename_i x hx
    split at h
    · cases h
    · cases h; exact ⟨hx, by assumption⟩

theorem opens {fs : FileMap} {p : Place} {b : Bytes} (h : fs p = some b) (hb : b ≠ []) : openInput fs p = some b := by
  unfold openInput; rw [h]; exact if_neg hb

section
variable {cwd : Place} {isDir : Place → Bool} {lower : Nat → Nat} {lc : Char → Char} (hl : ∀ x : Char, lower x.toNat = (lc x).toNat)
  {asort : List Alphabet → List Alphabet} (has : ∀ l, (asort l).Perm l) {C : CDBFile} (hC : C.Lawful) {mphFuel : Nat} (hmf : mphFuel < 2 ^ 31)
  -- the configuration file
  {path text : List Char} {members : List (List Char × JVal)} {d : ModelText} (htext : JsonText (.obj members) text)
  (hd : DescribesModel members d)
  -- the source file
  {fs0 : FileMap} {src : Bytes} (hsrc : fs0 (d.sourceFile cwd path) = some src) {B : Nat} (hG : GoodText d.corpus lc src B (2 ^ 26))
  -- the n-grams are counted
  {fs1 : FileMap} (hcount : CountCommand cwd isDir lower asort path (some (utf8 text)) fs0 fs1 none)
  -- anything happens that spares the n-gram files of the folder
  {H1 : List Event} {fs2 : FileMap} (hH1 : History cwd isDir lower asort C mphFuel fs1 H1 fs2)
  (hs1 : ∀ e ∈ H1, SparesGrams cwd (d.folder cwd path) e)

include hl has htext hd hsrc hG hcount in
/-- After the count the n-gram files of the folder are those of the text. -/
theorem counted : ∃ (r : Reader) (outs : List Bytes), Delivers r src ∧ NGramCount lower asort (confOf d.corpus) r outs ∧
    outs.length = d.nGramOrder ∧ ∀ i out, outs[i]? = some out → fs1 (d.folder cwd path ++ [gramsName (i + 1)]) = some out := by
  have hread := C95_model path htext hd
  generalize hn : (none : Option Err) = e at hcount
  cases hcount with
  | noConfig _ => cases hn
  | noSource _ _ => cases hn
  | noFolder _ _ => cases hn
  | stopped _ _ => cases hn
  | @ok c t r outs hc ht hr _ hcnt =>
    rw [hread] at hc
    cases hc
    rw [source_loaded, hsrc] at ht
    cases ht
    have hG' : GoodText d.corpus lc r.chunks.flatten B (2 ^ 26) := by rw [hr.text]; exact hG
    obtain ⟨hlen, _⟩ := (C79_counts_partial (sort := asort) hl has hr.chunks (goodText_mono hG' (by norm_num))).2 outs hcnt
    refine ⟨r, outs, hr, hcnt, hlen, fun i out hi => ?_⟩
    have := writeGrams_at (cwd := cwd) (path := path) (c := loadedModel path d) (k := 0) (fs := fs0) hi
    rw [Nat.zero_add, grams_place, folder_loaded] at this
    exact this

section
variable
  -- the model is built, with a configuration for the same folder and order
  {path' text' : List Char} {members' : List (List Char × JVal)} {d' : ModelText} (htext' : JsonText (.obj members') text')
  (hd' : DescribesModel members' d') (hname' : '/' ∉ d'.name) (hfolder : d'.folder cwd path' = d.folder cwd path)
  (horder : d'.nGramOrder = d.nGramOrder)
  {fs3 : FileMap} (hbuild : BuildCommand cwd isDir C mphFuel path' (some (utf8 text')) fs2 fs3 none)
  -- anything happens that spares the model
  {H2 : List Event} {fs4 : FileMap} (hH2 : History cwd isDir lower asort C mphFuel fs3 H2 fs4)
  (hs2 : ∀ e ∈ H2, SparesModel cwd (d'.folder cwd path') d'.name e)

include hl has hC htext hd hsrc hG hcount hH1 hs1 htext' hd' hname' hfolder horder hbuild hH2 hs2 in
/-- What the files hold in the end: the dictionary and the binary model made from the n-grams of the text. -/
theorem stored_files : ∃ (r : Reader) (outs : List Bytes) (first : Bytes) (f : Reader) (rs : List Reader) (mphSort : Dict → List Nat)
    (words : List Bytes) (data : Bytes), Delivers r src ∧ NGramCount lower asort (confOf d.corpus) r outs ∧
    outs[0]? = some first ∧ Delivers f first ∧ List.Forall₂ Delivers rs outs ∧ (∀ d, MphOrder d (mphSort d)) ∧
    (∃ n, ∀ fuel, n ≤ fuel → storeBinaryLM mphSort mphFuel fuel f rs = some (.ok (words, data))) ∧ (∀ out ∈ outs, out ≠ []) ∧
    openInput fs4 (d'.folder cwd path' ++ [d'.name ++ ".cdb".toList]) = some (C.write words) ∧
    fs4 (d'.folder cwd path' ++ [d'.name ++ ".lm".toList]) = some data ∧ isDir (d'.folder cwd path') = true := by
  obtain ⟨r, outs, hr, hcnt, hlen, hout⟩ := counted hl has htext hd hsrc hG hcount
  have hread := C95_model path' htext' hd'
  have hgr : ∀ k, fs2 (d.folder cwd path ++ [gramsName k]) = fs1 (d.folder cwd path ++ [gramsName k]) := fun k =>
    history_spares hH1 fun e he a b hab => event_grams (hs1 e he) hab k
  have hmo : ∀ ext, (ext = ".cdb".toList ∨ ext = ".lm".toList) →
      fs4 (d'.folder cwd path' ++ [d'.name ++ ext]) = fs3 (d'.folder cwd path' ++ [d'.name ++ ext]) := fun ext hx =>
    history_spares hH2 fun e he a b hab => event_model (hs2 e he) hab hx
  generalize hn : (none : Option Err) = e at hbuild
  cases hbuild with
  | noConfig _ => cases hn
  | noFolder _ _ => cases hn
  | stopped _ _ => cases hn
  | @ok c first texts f rs mphSort words data fs1' hc hdir h1 hf hfs1 htexts hrs hms hst =>
    rw [hread] at hc
    cases hc
    have hnm : '/' ∉ (pathsOf (loadedModel path' d')).name := by rw [paths_loaded]; exact hname'
    obtain ⟨p1, p2⟩ := model_places (cwd := cwd) (path := path') hnm
    rw [folder_loaded, paths_loaded] at p1 p2
    change dictionaryOf cwd path' (loadedModel path' d') = d'.folder cwd path' ++ [d'.name ++ ".cdb".toList] at p1
    change binaryOf cwd path' (loadedModel path' d') = d'.folder cwd path' ++ [d'.name ++ ".lm".toList] at p2
    rw [grams_place, folder_loaded, hfolder] at h1
    have hg' : ∀ k, fs1' (d.folder cwd path ++ [gramsName k]) = fs1 (d.folder cwd path ++ [gramsName k]) := by
      intro k
      rw [hfs1, ← hgr k]
      refine Function.update_of_ne ?_ _ _
      rw [p1]
      exact fun he => (gramsName_ne k _).1 (last_ne he).2
    have hpos : 1 ≤ d.nGramOrder := hG.orderPos
    have hpoint : ∀ i, i < d.nGramOrder → ∃ t, openInput fs1' (d.folder cwd path ++ [gramsName (i + 1)]) = some t ∧ texts[i]? = some t := by
      intro i hi
      have := congrArg (fun l => l[i]?) htexts
      simp only [List.getElem?_map] at this
      rw [List.getElem?_range (show i < (loadedModel path' d').nGramOrder from by show i < d'.nGramOrder; omega), Option.map_some, grams_place, folder_loaded, hfolder] at this
      cases ht : texts[i]? with
      | none => rw [ht] at this; cases this
      | some t =>
        rw [ht] at this
        exact ⟨t, Option.some.inj this, rfl⟩
    have htl : texts.length = d.nGramOrder := by
      have := congrArg List.length htexts
      simp only [List.length_map, List.length_range] at this
      exact this.symm.trans horder
    have hto : texts = outs := by
      refine List.ext_getElem? fun i => ?_
      by_cases hi : i < d.nGramOrder
      · obtain ⟨t, ht, ht'⟩ := hpoint i hi
        have hoi : outs[i]? = some outs[i] := List.getElem?_eq_getElem _
        have := hout i _ hoi
        rw [← hg', (opened ht).1] at this
        rw [ht', hoi]; exact this
      · rw [List.getElem?_eq_none (by omega), List.getElem?_eq_none (by omega)]
    subst hto
    have hfirst : texts[0]? = some first := by
      have hoi : texts[0]? = some texts[0] := List.getElem?_eq_getElem (by omega)
      have := hout 0 _ hoi
      rw [← hgr, Nat.zero_add, (opened h1).1] at this
      rw [hoi]; exact this.symm
    have hdict : fs4 (d'.folder cwd path' ++ [d'.name ++ ".cdb".toList]) = some (C.write words) := by
      rw [hmo _ (.inl rfl), p2, hfs1, p1]
      refine (Function.update_of_ne ?_ _ _).trans (Function.update_self _ _ _)
      intro he
      have := List.append_cancel_left (last_ne he).2
      revert this; decide
    refine ⟨r, texts, first, f, rs, mphSort, words, data, hr, hcnt, hfirst, hf, hrs, hms, hst, ?_, opens hdict (hC.write_ne _), ?_, ?_⟩
    · intro out ho
      obtain ⟨i, hi⟩ := List.getElem?_of_mem ho
      have hi' : i < texts.length := (List.getElem?_eq_some_iff.1 hi).1
      obtain ⟨t, ht, ht'⟩ := hpoint i (by omega)
      rw [hi] at ht'
      cases ht'
      exact (opened ht).2
    · rw [hmo _ (.inr rfl), p2]
      exact Function.update_self _ _ _
    · rw [← folder_loaded]; exact hdir

end

theorem order_small {members : List (List Char × JVal)} {d : ModelText} (hd : DescribesModel members d) : d.nGramOrder < 256 := by
  have h := hd.nGramOrder.2
  revert h
  cases (given members "nGramOrder").getLast? with
  | none => intro h; change d.nGramOrder = 0 at h; omega
  | some v =>
    intro h
    obtain ⟨t, _, _, _, h⟩ := h
    exact h

/-! ### The n-gram files -/

theorem occurrences_length {α : Type} [DecidableEq α] (p : List α) : ∀ l : List α, gramOccurrences p l ≠ 0 → p.length ≤ l.length := by
  intro l
  induction l with
  | nil =>
    intro h
    unfold gramOccurrences at h
    split at h
    · rename_i hp; rw [hp]
    · exact absurd rfl h
  | cons x l ih =>
    intro h
    unfold gramOccurrences at h
    by_cases hp : p <+: x :: l
    · exact hp.length_le
    · rw [if_neg hp, Nat.zero_add] at h
      exact Nat.le_succ_of_le (ih h)

theorem occurrences_prefix {α : Type} [DecidableEq α] {p l : List α} (h : p <+: l) : gramOccurrences p l ≠ 0 := by
  cases l with
  | nil =>
    have := List.prefix_nil.1 h
    unfold gramOccurrences; rw [if_pos this]; decide
  | cons x l => unfold gramOccurrences; rw [if_pos h]; omega

/-- Some sequence of `k` words occurs in the sentences (with the symbols around them) exactly if there is a long enough sentence. -/
theorem some_gram {start fin : List Char} {corpus : List (List (List Char))} {k : Nat} :
    (∃ g : List (List Char), g.length = k ∧ wordCount start fin corpus g ≠ 0) ↔ ∃ s ∈ corpus, s ≠ [] ∧ k ≤ s.length + 2 := by
  unfold wordCount corpusCount
  constructor
  · rintro ⟨g, hg, h⟩
    by_contra hno
    refine h (List.sum_eq_zero fun n hn => ?_)
    obtain ⟨s, hs, rfl⟩ := List.mem_map.1 hn
    obtain ⟨hs, hne⟩ := List.mem_filter.1 hs
    obtain ⟨t, ht, rfl⟩ := List.mem_map.1 hs
    by_contra hz
    have := occurrences_length _ _ hz
    refine hno ⟨t, ht, ?_, ?_⟩
    · rintro rfl; simp at hne
    · simp only [List.length_map, List.length_append, List.length_cons, List.length_nil, hg] at this
      omega
  · rintro ⟨s, hs, hne, hk⟩
    refine ⟨(start :: s ++ [fin]).take k, by simp; omega, ?_⟩
    intro h0
    have hm : s.map utf8 ∈ (corpus.map fun s => s.map utf8).filter (· ≠ []) := by
      refine List.mem_filter.2 ⟨List.mem_map.2 ⟨s, hs, rfl⟩, ?_⟩
      simpa using hne
    have := List.sum_eq_zero_iff.1 h0 _ (List.mem_map.2 ⟨_, hm, rfl⟩)
    refine occurrences_prefix ?_ this
    have e : utf8 start :: s.map utf8 ++ [utf8 fin] = (start :: s ++ [fin]).map utf8 := by simp
    rw [e, List.map_take]
    exact List.take_prefix _ _

include hl has htext hd hsrc hG hcount hH1 hs1 in
/-- **C97** (partial: the conditions on the text of C79) After `lm ngram-count`, whatever else happens that spares the files: the command
`lm build-lm` can open the n-gram file of order `k` exactly if the text has a sentence of at least k − 2 words (an empty file cannot be
mapped into memory). -/
theorem C97_grams_partial {k : Nat} (hk : 1 ≤ k) (hk' : k ≤ d.nGramOrder) :
    openInput fs2 (d.folder cwd path ++ [gramsName k]) ≠ none ↔ ∃ s ∈ d.corpus.sentences lc src, s ≠ [] ∧ k ≤ s.length + 2 := by
  obtain ⟨r, outs, hr, hcnt, hlen, hout⟩ := counted hl has htext hd hsrc hG hcount
  have hG' : GoodText d.corpus lc r.chunks.flatten B (2 ^ 26) := by rw [hr.text]; exact hG
  obtain ⟨_, hfile⟩ := (C79_counts_partial (sort := asort) hl has hr.chunks (goodText_mono hG' (by norm_num))).2 outs hcnt
  have hoi : outs[k - 1]? = some outs[k - 1] := List.getElem?_eq_getElem (by omega)
  obtain ⟨F, lines, ho, hF, _, hmem⟩ := hfile (k - 1) _ hoi
  have hat : fs2 (d.folder cwd path ++ [gramsName k]) = some outs[k - 1] := by
    rw [history_spares hH1 fun e he a b hab => event_grams (hs1 e he) hab k]
    have := hout (k - 1) _ hoi
    rwa [show k - 1 + 1 = k by omega] at this
  rw [← hr.text, ← some_gram (start := d.corpus.start) (fin := d.corpus.fin)]
  constructor
  · intro h
    have hne : outs[k - 1] ≠ [] := by
      intro he
      refine h ?_
      unfold openInput
      rw [hat]
      exact if_pos he
    cases hF with
    | nil => exact absurd ho hne
    | @cons e l F lines _ _ =>
      obtain ⟨h1, h2, h3⟩ := (hmem e.1 e.2).1 List.mem_cons_self
      exact ⟨e.1, by omega, by rw [← h2]; exact h3⟩
  · rintro ⟨g, hg, h0⟩
    have := (hmem g _).2 ⟨by omega, rfl, h0⟩
    intro hnone
    have he : outs[k - 1] = [] := by
      by_contra hne
      rw [opens hat hne] at hnone
      cases hnone
    rw [ho] at he
    cases hF with
    | nil => cases this
    | @cons e l F lines hl _ =>
      obtain ⟨digits, hl, _⟩ := hl.eq
      rw [List.flatten_cons, hl] at he
      simp at he

/-- The dictionary built from a counted `1-gm` has the words of the text. -/
theorem counted_dictionary {lower : Nat → Nat} {lc : Char → Char} (hl : ∀ x : Char, lower x.toNat = (lc x).toNat)
    {asort : List Alphabet → List Alphabet} (has : ∀ l, (asort l).Perm l) {T : CorpusConf} {r : Reader} {src : Bytes} (hr : Delivers r src)
    {B : Nat} (hG : GoodText T lc src B (2 ^ 26)) (hT : Training T.start T.fin T.order (T.sentences lc src)) {outs : List Bytes}
    (hcnt : NGramCount lower asort (confOf T) r outs) {first : Bytes} (hfirst : outs[0]? = some first) {f : Reader} (hf : Delivers f first)
    {bwords : List Bytes} (hbd : ∃ n, ∀ fuel, n ≤ fuel → buildDictionary fuel f = some (.ok bwords)) :
    ∃ words : List (List Char), bwords = words.map utf8 ∧ words.Nodup ∧
      ∀ w, w ∈ words ↔ wordCount T.start T.fin (T.sentences lc src) [w] ≠ 0 := by
  have ht := hr.text
  subst ht
  obtain ⟨fuel, source, hsrc, st, h1, h2, ord, h3, hw⟩ := hcnt
  have hret := C79_sentences_partial (lower := lower) (sort := asort) hl has (hG.letters ' ' (by simp)).1 hG.sep hr.chunks hG.sentences
  have := retrieve_mono hsrc hret
  simp only [Except.ok.injEq] at this
  subst this
  obtain ⟨outs', first', e1, e2, h4⟩ :=
    C63_stored_language_model hT.good (training_words hT) (training_one hT) hT.order255 hT.size h1 h2 h3
  rw [show nGramWrite T.order st.trie ord = .ok outs from hw] at e1; cases e1
  rw [hfirst] at e2; cases e2
  have hdel : ∀ b : Bytes, ∃ r, Delivers r b := by
    intro b
    by_cases hb : b = []
    · exact ⟨⟨[], .eof, false⟩, by simp, by simp [hb], rfl⟩
    · exact ⟨⟨[b], .eof, false⟩, by simpa using hb, by simp, rfl⟩
  choose rd hrd using hdel
  obtain ⟨words', w1, w2, _, ⟨n2, w4⟩, _⟩ := h4 f (outs.map rd) hf (by
    rw [List.forall₂_map_left_iff, List.forall₂_same]; exact fun b _ => hrd b)
  obtain ⟨n, hn⟩ := hbd
  have e : bwords = words' := by
    have a := hn (max n n2) (by omega)
    rw [w4 _ (by omega)] at a
    injection a with a; injection a with a
    exact a.symm
  subst e
  obtain ⟨ws, rfl⟩ := known_words w2
  refine ⟨ws, rfl, List.Nodup.of_map _ w1, fun w => ?_⟩
  rw [← mem_utf8 (l := ws) (w := w), w2]
  rfl

include hl has hC htext hd hsrc hG hcount hH1 hs1 in
/-- **C97** fails for an order beyond the longest sentence: if every sentence of the text has fewer than order − 2 words, the command
`lm build-lm` never succeeds, although `lm ngram-count` has. -/
theorem C97_short_sentences_wrong (hname : '/' ∉ d.name) (hshort : ∀ s ∈ d.corpus.sentences lc src, s.length + 2 < d.nGramOrder) :
    ¬ ∃ fs3, BuildCommand cwd isDir C mphFuel path (some (utf8 text)) fs2 fs3 none := by
  rintro ⟨fs3, hbuild⟩
  obtain ⟨r, outs, _, _, _, _, _, _, hr, hcnt, _, _, _, _, _, hne, _⟩ :=
    stored_files hl has hC htext hd hsrc hG hcount hH1 hs1 htext hd hname rfl rfl hbuild (H2 := []) .nil (by simp)
  obtain ⟨r', outs', hr', hcnt', hlen, hout⟩ := counted hl has htext hd hsrc hG hcount
  have hG' : GoodText d.corpus lc r.chunks.flatten B (2 ^ 26) := by rw [hr.text]; exact hG
  obtain ⟨hlen, hfile⟩ := (C79_counts_partial (sort := asort) hl has hr.chunks (goodText_mono hG' (by norm_num))).2 outs hcnt
  have hpos : 1 ≤ d.nGramOrder := hG.orderPos
  have hlen' : outs.length = d.nGramOrder := hlen
  have hoi : outs[d.nGramOrder - 1]? = some outs[d.nGramOrder - 1] := List.getElem?_eq_getElem (by omega)
  obtain ⟨F, lines, ho, hF, _, hmem⟩ := hfile _ _ hoi
  have hne := hne _ (List.mem_of_getElem? hoi)
  cases hF with
  | nil => exact hne ho
  | @cons e l F lines _ _ =>
    obtain ⟨h1, h2, h3⟩ := (hmem e.1 e.2).1 List.mem_cons_self
    rw [hr.text] at h2
    obtain ⟨s, hs, _, hle⟩ := some_gram.1 ⟨e.1, rfl, by rw [← h2]; exact h3⟩
    have := hshort s hs
    omega

section
variable (hord : 2 ≤ d.nGramOrder) (hsym : d.startSymbol ≠ [] ∧ d.endSymbol ≠ [])
  (hone : ∃ s ∈ d.corpus.sentences lc src, s ≠ [])

include hl has hC hmf htext hd hsrc hG hcount hH1 hs1 hord hsym hone in
/-- **C97** fails for two language models in one output folder: `lm build-lm` for the second, with the n-grams last counted for the first,
succeeds as ever, and its dictionary has exactly the words of the text of the first. -/
theorem C97_shared_folder_wrong {path' text' : List Char} {members' : List (List Char × JVal)} {d' : ModelText}
    (htext' : JsonText (.obj members') text') (hd' : DescribesModel members' d') (hname' : '/' ∉ d'.name)
    (hfolder : d'.folder cwd path' = d.folder cwd path) (horder : d'.nGramOrder = d.nGramOrder) {fs3 : FileMap}
    (hbuild : BuildCommand cwd isDir C mphFuel path' (some (utf8 text')) fs2 fs3 none) :
    ∃ words : List (List Char),
      (fs3 (d'.folder cwd path' ++ [d'.name ++ ".cdb".toList])).bind C.read = some (words.map utf8) ∧
      ∀ w, w ∈ words ↔ wordCount d.startSymbol d.endSymbol (d.corpus.sentences lc src) [w] ≠ 0 := by
  obtain ⟨r, outs, first, f, rs, mphSort, bwords, data, hr, hcnt, hfirst, hf, hrs, hms, hst, _, hdict, _⟩ :=
    stored_files hl has hC htext hd hsrc hG hcount hH1 hs1 htext' hd' hname' hfolder horder hbuild (H2 := []) .nil (by simp)
  have hG' : GoodText d.corpus lc r.chunks.flatten B (2 ^ 26) := by rw [hr.text]; exact hG
  have hT := C79_training hG hord (order_small hd) hsym hone
  have hm := C79_stored hl has hr.chunks hG' hcnt hfirst hf hrs hms hmf hst
  rw [hr.text] at hm
  obtain ⟨words, rfl, _, hw, _⟩ := stored_retrieved hT hm
  refine ⟨words, ?_, hw⟩
  rw [(opened hdict).1]
  exact hC.read_write _

include hl has hC htext hd hsrc hG hcount hH1 hs1 hord hsym hone in
/-- **C97** fails for a model that was built before: if now the order exceeds the longest sentence by more than two, `lm build-lm` ends with
an error — and the dictionary has been replaced by the words of the new text, while the binary model and every other file are as before.
The spell checker, started now, reads an old model with a dictionary that does not belong to it. -/
theorem C97_failed_build_wrong (hname : '/' ∉ d.name)
    (hshort : ∀ s ∈ d.corpus.sentences lc src, s.length + 2 < d.nGramOrder) :
    -- the command cannot succeed
    (¬ ∃ fs3, BuildCommand cwd isDir C mphFuel path (some (utf8 text)) fs2 fs3 none) ∧
    -- and if it ends, the files are these
    ∀ fs3, UnreadBuild cwd isDir C mphFuel path (some (utf8 text)) fs2 fs3 →
      BuildCommand cwd isDir C mphFuel path (some (utf8 text)) fs2 fs3 (some (.other "open")) ∧
      (∃ words : List (List Char),
        (fs3 (d.folder cwd path ++ [d.name ++ ".cdb".toList])).bind C.read = some (words.map utf8) ∧
        ∀ w, w ∈ words ↔ wordCount d.startSymbol d.endSymbol (d.corpus.sentences lc src) [w] ≠ 0) ∧
      ∀ p, p ≠ d.folder cwd path ++ [d.name ++ ".cdb".toList] → fs3 p = fs2 p := by
  refine ⟨C97_short_sentences_wrong hl has hC htext hd hsrc hG hcount hH1 hs1 hname hshort, fun fs3 hu => ⟨unread_run hu, ?_⟩⟩
  obtain ⟨r, outs, hr, hcnt, hlen, hout⟩ := counted hl has htext hd hsrc hG hcount
  cases hu with
  | @mk c first f mphSort words table _ k hc hdir h1 hf hbd hfs1 hms hm hk hk' hno =>
    rw [C95_model path htext hd] at hc
    cases hc
    have hnm : '/' ∉ (pathsOf (loadedModel path d)).name := by rw [paths_loaded]; exact hname
    obtain ⟨p1, _⟩ := model_places (cwd := cwd) (path := path) hnm
    rw [folder_loaded, paths_loaded] at p1
    change dictionaryOf cwd path (loadedModel path d) = d.folder cwd path ++ [d.name ++ ".cdb".toList] at p1
    rw [grams_place, folder_loaded] at h1
    have hfirst : outs[0]? = some first := by
      have hpos : 1 ≤ d.nGramOrder := hG.orderPos
      have hoi : outs[0]? = some outs[0] := List.getElem?_eq_getElem (by omega)
      have := hout 0 _ hoi
      rw [Nat.zero_add, ← history_spares hH1 fun e he a b hab => event_grams (hs1 e he) hab 1, (opened h1).1] at this
      rw [hoi]; exact this.symm
    have hT := C79_training hG hord (order_small hd) hsym hone
    obtain ⟨ws, rfl, _, hw⟩ := counted_dictionary hl has hr hG hT hcnt hfirst hf hbd
    rw [p1] at hfs1
    subst hfs1
    refine ⟨⟨ws, ?_, hw⟩, fun p hp => Function.update_of_ne hp _ _⟩
    rw [Function.update_self]
    exact hC.read_write _

include hl has hC htext hd hsrc hG hcount hH1 hs1 hord hsym hone in
/-- **C97** fails for some small vocabularies: if the text has exactly 2^k different words (the start and the end symbol are two of them) and
two of them agree in the k low bits of each byte, `lm build-lm` never succeeds — it searches for a hash function for ever (C64). An
example is a text of the two words "a" and "e". -/
theorem C97_hanging_build_wrong (hname : '/' ∉ d.name) {words : List (List Char)} (hnd : words.Nodup)
    (hwords : ∀ w, w ∈ words ↔ wordCount d.startSymbol d.endSymbol (d.corpus.sentences lc src) [w] ≠ 0)
    {k : Nat} (hk : k ≤ 32) (hlen : words.length = 2 ^ k) {v w : List Char} (hv : v ∈ words) (hw : w ∈ words) (hvw : v ≠ w)
    (hbits : List.Forall₂ (fun a b : UInt8 => a.toNat % 2 ^ k = b.toNat % 2 ^ k) (utf8 v) (utf8 w)) :
    ¬ ∃ fs3, BuildCommand cwd isDir C mphFuel path (some (utf8 text)) fs2 fs3 none := by
  rintro ⟨fs3, hbuild⟩
  obtain ⟨r, outs, first, f, rs, mphSort, bwords, data, hr, hcnt, hfirst, hf, hrs, hms, ⟨n, hst⟩, _⟩ :=
    stored_files hl has hC htext hd hsrc hG hcount hH1 hs1 htext hd hname rfl rfl hbuild (H2 := []) .nil (by simp)
  have hT := C79_training hG hord (order_small hd) hsym hone
  have hb : ∀ fuel, n ≤ fuel → buildDictionary fuel f = some (.ok bwords) ∧
      mphBuild (ramDict bwords) (mphSort (ramDict bwords)) mphFuel ≠ none := by
    intro fuel hfu
    have := hst fuel hfu
    unfold storeBinaryLM at this
    split at this <;> try (cases this)
    rename_i ws hws
    split at this <;> try (cases this)
    rename_i table ht
    split at this <;> try (cases this)
    exact ⟨hws, by rw [ht]; simp⟩
  obtain ⟨ws, rfl, hnd', hw'⟩ := counted_dictionary hl has hr hG hT hcnt hfirst hf ⟨n, fun fuel h => (hb fuel h).1⟩
  have hperm : ws.Perm words := (List.perm_ext_iff_of_nodup hnd' hnd).2 fun x => (hw' x).trans (hwords x).symm
  obtain ⟨i, hi⟩ := List.getElem?_of_mem (hperm.mem_iff.2 hv)
  obtain ⟨j, hj⟩ := List.getElem?_of_mem (hperm.mem_iff.2 hw)
  refine (hb n (Nat.le_refl _)).2 (C64_power_of_two_diverges (k := k) (by rw [List.length_map, hperm.length_eq, hlen]) hk (i := i) (j := j)
    (v := utf8 v) (w := utf8 w) (by rw [List.getElem?_map, hi]; rfl) (by rw [List.getElem?_map, hj]; rfl) ?_ hbits (hms _) _)
  rintro rfl
  rw [hi] at hj
  exact hvw (Option.some.inj hj)

end

/-! ### From the text to the answer -/

section
variable (hname : '/' ∉ d.name) (hord : 2 ≤ d.nGramOrder) (hsym : d.startSymbol ≠ [] ∧ d.endSymbol ≠ [])
  (hone : ∃ s ∈ d.corpus.sentences lc src, s ≠ [])
  -- the model is built
  {fs3 : FileMap} (hbuild : BuildCommand cwd isDir C mphFuel path (some (utf8 text)) fs2 fs3 none)
  -- anything happens that spares the model
  {H2 : List Event} {fs4 : FileMap} (hH2 : History cwd isDir lower asort C mphFuel fs3 H2 fs4)
  (hs2 : ∀ e ∈ H2, SparesModel cwd (d.folder cwd path) d.name e)
  -- the spell checker is started
  {ρ : Roaring} (L : ρ.Lawful) {G : Gob} (LG : G.Lawful) {iorder : Nat → TermMap → TermMap} (ho : ∀ i m, (iorder i m).Perm m)
  {sd sh : Bytes → List Bytes} (hsd : ∀ b, (sd b).flatten = b) (hsh : ∀ b, (sh b).flatten = b)
  {msort : List (PList ρ) → List (PList ρ)} (hs : ∀ r, (msort r).Perm r)
  (hI : Indexable (serviceWords lc) fun w => wordCount d.startSymbol d.endSymbol (d.corpus.sentences lc src) [w])
  (hsize : ∀ words b hd, (fs4 (d.folder cwd path ++ [d.name ++ ".cdb".toList])).bind C.read = some words →
    indexData ρ iorder (suggestTokenizer lower asort serviceIndex) (ramDict words) = .ok (b, hd) → b.length < 2 ^ 32)

include hl has hC hmf htext hd hsrc hG hcount hH1 hs1 hname hord hsym hone hbuild hH2 hs2 L LG ho hsd hsh hs hI hsize in
/-- **C97** (partial: the conditions on the text of C71 and C79) After `lm ngram-count` and `lm build-lm`, and whatever happens in between
and afterwards that spares the files, the spell checker starts. -/
theorem C97_starts_partial : ∃ sc, startChecker cwd isDir lower asort C ρ G iorder sd sh msort path (some (utf8 text)) fs4 = .ok sc := by
  obtain ⟨r, outs, first, f, rs, mphSort, bwords, data, hr, hcnt, hfirst, hf, hrs, hms, hst, _, hdict, hbin, hdir⟩ :=
    stored_files hl has hC htext hd hsrc hG hcount hH1 hs1 htext hd hname rfl rfl hbuild hH2 hs2
  have hG' : GoodText d.corpus lc r.chunks.flatten B (2 ^ 26) := by rw [hr.text]; exact hG
  have hT := C79_training hG hord (order_small hd) hsym hone
  have hm := C79_stored hl has hr.chunks hG' hcnt hfirst hf hrs hms hmf hst
  rw [hr.text] at hm
  have hsz : ∀ b hd, indexData ρ iorder (suggestTokenizer lower asort serviceIndex) (ramDict bwords) = .ok (b, hd) → b.length < 2 ^ 32 :=
    fun b h => hsize bwords b h (by rw [(opened hdict).1]; exact hC.read_write _)
  obtain ⟨sc, hb⟩ := C71_builds (name := "words") (a := Alphabet.create asort (d.alphabet.map utf8)) hT hm L LG ho hsd hsh hs
    (service_describes hl has) hI hsz
  have hdata : data ≠ [] := by
    obtain ⟨n, hn⟩ := hst
    have := hn n (Nat.le_refl _)
    unfold storeBinaryLM at this
    split at this <;> try (cases this)
    split at this <;> try (cases this)
    split at this <;> try (cases this)
    unfold lmStore
    intro h0
    have := (List.append_eq_nil_iff.1 h0).1
    unfold modelStore at this
    simp at this
  have hnm : '/' ∉ (pathsOf (loadedModel path d)).name := by rw [paths_loaded]; exact hname
  obtain ⟨p1, p2⟩ := model_places (cwd := cwd) (path := path) hnm
  rw [folder_loaded, paths_loaded] at p1 p2
  change dictionaryOf cwd path (loadedModel path d) = d.folder cwd path ++ [d.name ++ ".cdb".toList] at p1
  change binaryOf cwd path (loadedModel path d) = d.folder cwd path ++ [d.name ++ ".lm".toList] at p2
  refine ⟨sc, ?_⟩
  unfold startChecker
  simp only [C95_model path htext hd, folder_loaded, hdir, Bool.true_eq_false, if_false, p1, p2, hdict, opens hbin hdata, Option.bind_some,
    hC.read_write]
  exact hb

variable {sc : SpellChecker} (hstart : startChecker cwd isDir lower asort C ρ G iorder sd sh msort path (some (utf8 text)) fs4 = .ok sc)

include hl has hC htext hd hsrc hG hcount hH1 hs1 hname hbuild hH2 hs2 hstart in
/-- What the spell checker is built from. -/
theorem started_from : ∃ (r : Reader) (outs : List Bytes) (first : Bytes) (f : Reader) (rs : List Reader) (mphSort : Dict → List Nat)
    (words : List Bytes) (data : Bytes), Delivers r src ∧ NGramCount lower asort (confOf d.corpus) r outs ∧
    outs[0]? = some first ∧ Delivers f first ∧ List.Forall₂ Delivers rs outs ∧ (∀ d, MphOrder d (mphSort d)) ∧
    (∃ n, ∀ fuel, n ≤ fuel → storeBinaryLM mphSort mphFuel fuel f rs = some (.ok (words, data))) ∧
    (fs4 (d.folder cwd path ++ [d.name ++ ".cdb".toList])).bind C.read = some words ∧
    buildSpellChecker ρ G iorder sd sh msort lower asort serviceIndex "words" (Alphabet.create asort (confOf d.corpus).alphabet)
      words data d.corpus.order (utf8 d.corpus.start) (utf8 d.corpus.fin) = .ok sc := by
  obtain ⟨r, outs, first, f, rs, mphSort, bwords, data, hr, hcnt, hfirst, hf, hrs, hms, hst, _, hdict, hbin, hdir⟩ :=
    stored_files hl has hC htext hd hsrc hG hcount hH1 hs1 htext hd hname rfl rfl hbuild hH2 hs2
  have hnm : '/' ∉ (pathsOf (loadedModel path d)).name := by rw [paths_loaded]; exact hname
  obtain ⟨p1, p2⟩ := model_places (cwd := cwd) (path := path) hnm
  rw [folder_loaded, paths_loaded] at p1 p2
  change dictionaryOf cwd path (loadedModel path d) = d.folder cwd path ++ [d.name ++ ".cdb".toList] at p1
  change binaryOf cwd path (loadedModel path d) = d.folder cwd path ++ [d.name ++ ".lm".toList] at p2
  refine ⟨r, outs, first, f, rs, mphSort, bwords, data, hr, hcnt, hfirst, hf, hrs, hms, hst, ?_, ?_⟩
  · rw [(opened hdict).1]; exact hC.read_write _
  unfold startChecker at hstart
  simp only [C95_model path htext hd, folder_loaded, hdir, Bool.true_eq_false, if_false, p1, p2, hdict, Option.bind_some,
    hC.read_write] at hstart
  split at hstart
  · cases hstart
  · rename_i data' hdata
    have := (opened hdata).1.symm.trans hbin
    cases this
    exact hstart

variable
  -- the request
  {query : List Char} {seq : List (List Char)} {last : List Char}
  (hrun : maximalRuns (inAlphabet d.alphabet) (trim ' ' (query.map lc)) = seq ++ [last]) (hlast : GoodLast (serviceWords lc) last)
  {query' raw : Bytes} (hq : PctEncoded false (utf8 query) query') (hsq : PathSegment (utf8 query))
  {kvs : List (Bytes × Bytes)} (hform : FormEncoded kvs raw) {pf : Bytes → Except Err F64} {K : Nat}
  (hK : (fieldValue kvs "topK".toUTF8.toList = [] ∧ K = 5) ∨
    (IsDecimal (fieldValue kvs "topK".toUTF8.toList) K ∧ 1 ≤ K ∧ K < 2 ^ 63)) {α : ℚ}
  (hα : (fieldValue kvs "similarity".toUTF8.toList = [] ∧ α = 1 / 2) ∨
    (fieldValue kvs "similarity".toUTF8.toList ≠ [] ∧ pf (fieldValue kvs "similarity".toUTF8.toList) = .ok (.num α)))
  (h0 : 1 / 2 ^ 20 ≤ α) (h1 : α ≤ 1) {val : LMScore → ℚ} {oob : Int}

include hl has hC hmf htext hd hsrc hG hcount hH1 hs1 hname hord hsym hone hbuild hH2 hs2 L LG ho hsd hsh hs hI hsize hstart
  hrun hlast hq hsq hform hK hα h0 h1 in
/-- **C97** (partial: the restrictions of C90) From the bytes of the text and of the configuration file to the answer over HTTP, through
any history: the n-grams of the text are counted, the model is built, the spell checker is started with the same configuration, and in
between and afterwards anything happens that spares the files — commands for other models, failing and interrupted ones too, changes of
the text. Then the answers are the corrections of C90, with the words and the numbers of occurrences of the text as it was when it was
counted. -/
theorem C97_corrections_partial (hval : AccurateLog val) {a : Answer}
    (ha : SpellAnswered (f64Ops oob) id val sc pf .get (predictTarget query' raw) a) :
    let count := wordCount d.startSymbol d.endSymbol (d.corpus.sentences lc src)
    (seq = [] → ∃ body ws x y, a = .json body ∧ JsonBody body (wordsJson ws) ∧
      FirstWordCorrections (serviceWords lc) (fun w => count [w] ≠ 0) (fun w => count [w]) last α K ws x y) ∧
    (seq ≠ [] → seq.length ≠ d.nGramOrder → ∃ body ws, a = .json body ∧ JsonBody body (wordsJson ws) ∧
      Corrections (serviceWords lc) (fun w => count [w] ≠ 0) (fun w => count (contextWords d.nGramOrder d.startSymbol seq ++ [w]))
        last α K ws) := by
  obtain ⟨r, outs, first, f, rs, mphSort, bwords, data, hr, hcnt, hfirst, hf, hrs, hms, hst, hdict, hb⟩ :=
    started_from hl has hC htext hd hsrc hG hcount hH1 hs1 hname hbuild hH2 hs2 hstart
  have ht := hr.text
  subst ht
  exact C90_corrections_partial (c := serviceWords lc) (T := d.corpus) has (service_describes hl has) hr.chunks hG hord
    (order_small hd) hsym hone hcnt hfirst hf hrs hms hmf hst L LG ho hsd hsh hs hI (fun b h => hsize bwords b h hdict) hb
    hrun hlast hq hsq hform hK hα h0 h1 hval ha

include hl has hC hmf htext hd hsrc hG hcount hH1 hs1 hname hord hsym hone hbuild hH2 hs2 L LG ho hsd hsh hs hI hsize hstart
  hrun hlast hq hsq hform hK hα h0 h1 in
/-- **C97** (partial: as C90_answers_partial) … and there is an answer, and the handler cannot panic or block. -/
theorem C97_answers_partial
    (hlong : ∃ w, wordCount d.startSymbol d.endSymbol (d.corpus.sentences lc src) [w] ≠ 0 ∧
      (cosineMetric (f64Ops oob)).minY α ((serviceWords lc).grams ((serviceWords lc).wordText last)).length ≤
        ((serviceWords lc).grams ((serviceWords lc).wordText w)).length) :
    (∃ a, SpellAnswered (f64Ops oob) id val sc pf .get (predictTarget query' raw) a) ∧
    ¬ PredictHandlerPanics (f64Ops oob) id val sc pf (formValue raw) (utf8 query) ∧
    ¬ PredictHandlerBlocks (f64Ops oob) id val sc pf (formValue raw) (utf8 query) := by
  obtain ⟨r, outs, first, f, rs, mphSort, bwords, data, hr, hcnt, hfirst, hf, hrs, hms, hst, hdict, hb⟩ :=
    started_from hl has hC htext hd hsrc hG hcount hH1 hs1 hname hbuild hH2 hs2 hstart
  have ht := hr.text
  subst ht
  exact C90_answers_partial (c := serviceWords lc) (T := d.corpus) has (service_describes hl has) hr.chunks hG hord
    (order_small hd) hsym hone hcnt hfirst hf hrs hms hmf hst L LG ho hsd hsh hs hI (fun b h => hsize bwords b h hdict) hb
    hrun hlast hq hsq hform hK hα h0 h1 hlong

end
end
end Verif.Props
