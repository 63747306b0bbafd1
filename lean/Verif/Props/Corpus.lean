import Verif.Proofs.Corpus
import Verif.Props.Corrections
import Verif.Props.Analysis
import Verif.Props.WordSearch
/-!
Property theorems C79: the command `ngram-count` on a source file, from its bytes to the n-gram files and to the training of a
spell checker (cmd/language-model/cmd/ngram-count.go, pkg/lm).

`NGramCount lower sort (confOf T) r outs` — the command may write the files `outs` when the source file arrives as `r` says (any
chunks, any error at the end, any schedule, any iteration order of maps). `CorpusConf.sentences`, `inAlphabet`, `IsLine`,
`decodeText` — Verif/Spec/Corpus.lean; `wordCount` — Verif/Spec/Corrections.lean.
-/
namespace Verif.Props
open Verif Spec Verif.Corpus Verif.Correct Verif.NFiles Verif.CFiles

/-- The configuration as the code has it. -/
def confOf (T : CorpusConf) : LMConf := ⟨T.order, T.letters.map utf8, T.separators.map utf8, utf8 T.start, utf8 T.fin⟩

variable {lower : Nat → Nat} {lc : Char → Char} {sort : List Alphabet → List Alphabet} {T : CorpusConf}

theorem create_has (hs : ∀ l, (sort l).Perm l) (desc : List (List Char)) (c : Char) :
    (Alphabet.create sort (desc.map utf8)).has c.toNat = inAlphabet desc c := by
  have h := C39_create sort hs desc c
  rw [Bool.eq_iff_iff, h]
  unfold inAlphabet
  rw [List.any_eq_true]
  constructor
  · rintro ⟨e, he, h⟩
    refine ⟨e, he, ?_⟩
    split_ifs at h ⊢ <;> simp only [decide_eq_true_eq] at h ⊢ <;> exact h
  · rintro ⟨e, he, h⟩
    refine ⟨e, he, ?_⟩
    split_ifs at h ⊢ <;> simp only [decide_eq_true_eq] at h ⊢ <;> exact h

/-- What is retrieved, in characters. -/
theorem tokenize_sentences (hl : ∀ c : Char, lower c.toNat = (lc c).toNat) (hs : ∀ l, (sort l).Perm l)
    (hblank : inAlphabet T.letters ' ' = false) (ss : List Bytes) :
    tokenizeAll (lmTokenize lower (Alphabet.create sort (confOf T).alphabet)) ss =
      .ok ((ss.map fun s => maximalRuns (inAlphabet T.letters) ((decodeText s).map lc)).map fun s => s.map utf8) := by
  have hb : (Alphabet.create sort (confOf T).alphabet).has 32 = false := (create_has hs T.letters ' ').trans hblank
  have hf : (fun c : Char => (Alphabet.create sort (confOf T).alphabet).has c.toNat) = inAlphabet T.letters :=
    funext fun c => create_has hs T.letters c
  rw [tokenizeAll_ok (lmTokenize_any _ lower lc hl hb), hf, List.map_map]
  rfl

theorem sentences_words (hs : ∀ l, (sort l).Perm l) (text : Bytes) :
    (sentences (Alphabet.create sort (confOf T).separators).has text).map
      (fun s => maximalRuns (inAlphabet T.letters) ((decodeText s).map lc)) = T.sentences lc text := by
  have hf : (fun c : Char => !(Alphabet.create sort (confOf T).separators).has c.toNat) = fun c => !inAlphabet T.separators c :=
    funext fun c => congrArg not (create_has hs T.separators c)
  unfold CorpusConf.sentences textSentences
  rw [← hf, ← sentences_decode, List.map_map]
  rfl

/-- **C79**, any file: reading it always ends, and what is counted are the first sentences of the text, complete and in order
(U+FFFD must not be a separator, a blank must not be a letter). Missing: all sentences, see `C79_long_sentence_ignored`. -/
theorem C79_always_partial (hl : ∀ c : Char, lower c.toNat = (lc c).toNat) (hs : ∀ l, (sort l).Perm l)
    (hblank : inAlphabet T.letters ' ' = false) (hsep : inAlphabet T.separators '\uFFFD' = false)
    {r : Reader} (hr : ∀ c ∈ r.chunks, c ≠ []) :
    ∃ first n, (∀ fuel, n ≤ fuel → retrieveAll lower sort (confOf T) fuel r = some (.ok (first.map fun s => s.map utf8))) ∧
      first <+: T.sentences lc r.chunks.flatten := by
  obtain ⟨ts, e, ⟨n, h⟩, hp, _⟩ := C53_always_partial (sep := (Alphabet.create sort (confOf T).separators).has)
    ((create_has hs T.separators '\uFFFD').trans hsep) hr
  refine ⟨ts.map fun s => maximalRuns (inAlphabet T.letters) ((decodeText s).map lc), n, fun fuel hf => ?_, ?_⟩
  · unfold retrieveAll
    rw [h fuel hf, Option.map_some, tokenize_sentences hl hs hblank]
  · rw [← sentences_words hs]
    exact hp.map _

/-- **C79**, the sentences: if no sentence is longer than 65532 bytes, what is counted are the words of all sentences of the
text, however its bytes arrive. -/
theorem C79_sentences_partial (hl : ∀ c : Char, lower c.toNat = (lc c).toNat) (hs : ∀ l, (sort l).Perm l)
    (hblank : inAlphabet T.letters ' ' = false) (hsep : inAlphabet T.separators '\uFFFD' = false)
    {r : Reader} (hr : ∀ c ∈ r.chunks, c ≠ [])
    (hshort : ∀ s ∈ sentences (fun x => inAlphabet T.separators (Char.ofNat x)) r.chunks.flatten, s.length ≤ 65532) :
    ∃ n, ∀ fuel, n ≤ fuel → retrieveAll lower sort (confOf T) fuel r =
      some (.ok ((T.sentences lc r.chunks.flatten).map fun s => s.map utf8)) := by
  have hse : sentences (Alphabet.create sort (confOf T).separators).has r.chunks.flatten =
      sentences (fun x => inAlphabet T.separators (Char.ofNat x)) r.chunks.flatten := by
    unfold sentences
    rw [splitOnP_congr fun p hp => ?_]
    show _ = inAlphabet T.separators (Char.ofNat p.1)
    rw [← create_has hs T.separators, ofNat_toNat (pieces_valid _ p hp)]
    rfl
  obtain ⟨n, h⟩ := C53_sentences_partial (sep := (Alphabet.create sort (confOf T).separators).has)
    ((create_has hs T.separators '\uFFFD').trans hsep) hr (by rw [hse]; exact hshort)
  refine ⟨n, fun fuel hf => ?_⟩
  unfold retrieveAll
  rw [h fuel hf, Option.map_some, tokenize_sentences hl hs hblank, sentences_words hs]

/-- **C79** is false for longer sentences: everything from the first sentence of more than 65536 bytes on is silently left out,
the command succeeds with the counts of the sentences before. -/
theorem C79_long_sentence_ignored (hl : ∀ c : Char, lower c.toNat = (lc c).toNat) (hs : ∀ l, (sort l).Perm l)
    (hblank : inAlphabet T.letters ' ' = false) (hsep : inAlphabet T.separators '\uFFFD' = false)
    {r : Reader} (hr : ∀ c ∈ r.chunks, c ≠ []) {ss more : List Bytes} {long : Bytes}
    (ht : sentences (fun x => inAlphabet T.separators (Char.ofNat x)) r.chunks.flatten = ss ++ long :: more)
    (hss : ∀ s ∈ ss, s.length ≤ 65532) (hlong : 65536 < long.length) :
    ∃ n, ∀ fuel, n ≤ fuel → retrieveAll lower sort (confOf T) fuel r =
      some (.ok (((T.sentences lc r.chunks.flatten).take ss.length).map fun s => s.map utf8)) := by
  have hse : sentences (Alphabet.create sort (confOf T).separators).has r.chunks.flatten =
      sentences (fun x => inAlphabet T.separators (Char.ofNat x)) r.chunks.flatten := by
    unfold sentences
    rw [splitOnP_congr fun p hp => ?_]
    show _ = inAlphabet T.separators (Char.ofNat p.1)
    rw [← create_has hs T.separators, ofNat_toNat (pieces_valid _ p hp)]
    rfl
  rw [← hse] at ht
  obtain ⟨n, h⟩ := C53_long_sentence_wrong (sep := (Alphabet.create sort (confOf T).separators).has)
    ((create_has hs T.separators '\uFFFD').trans hsep) hr ht hss hlong
  refine ⟨n, fun fuel hf => ?_⟩
  unfold retrieveAll
  rw [h fuel hf, Option.map_some, tokenize_sentences hl hs hblank, ← sentences_words hs, ht]
  simp

/-- The limits of `C79_counts` and `C79_training`: a text of fewer than `size` bytes with words of at most `B` bytes (in lower case)
and sentences of at most 65532 bytes; blank, tab and newline are not letters and do not occur in the start and end symbols; U+FFFD
is not a separator. -/
structure GoodText (T : CorpusConf) (lc : Char → Char) (text : Bytes) (B size : Nat) : Prop where
  orderPos : 1 ≤ T.order
  letters : ∀ c ∈ [' ', '\t', '\n'], inAlphabet T.letters c = false ∧ c ∉ T.start ∧ c ∉ T.fin
  sep : inAlphabet T.separators '\uFFFD' = false
  size : text.length < size
  sentences : ∀ s ∈ sentences (fun x => inAlphabet T.separators (Char.ofNat x)) text, s.length ≤ 65532
  words : ∀ s ∈ T.sentences lc text, ∀ w ∈ s, (utf8 w).length ≤ B
  symbols : (utf8 T.start).length ≤ B ∧ (utf8 T.fin).length ≤ B
  lines : T.order * (B + 1) + 11 < 65536

theorem text_word {text : Bytes} {s : List (List Char)} (hs : s ∈ T.sentences lc text) {w : List Char} (hw : w ∈ s) :
    w ≠ [] ∧ ∀ c ∈ w, inAlphabet T.letters c = true := by
  unfold CorpusConf.sentences textSentences at hs
  obtain ⟨x, _, rfl⟩ := List.mem_map.1 hs
  exact (runs_length _ _).2 w hw

theorem goodText_corpus {text : Bytes} {B size : Nat} (hG : GoodText T lc text B size) (hsz : size ≤ 2 ^ 30) :
    GoodCorpus (utf8 T.start) (utf8 T.fin) T.order ((T.sentences lc text).map fun s => s.map utf8) := by
  have hsym : ∀ x : List Char, (∀ c ∈ [' ', '\t', '\n'], c ∉ x) → PlainWord (utf8 x) := by
    intro x hx
    apply plain_utf8
    intro c hc
    refine ⟨?_, ?_, ?_⟩ <;> rintro rfl
    · exact hx ' ' (by simp) hc
    · exact hx '\t' (by simp) hc
    · exact hx '\n' (by simp) hc
  refine goodCorpus_of_short (B := B) hG.orderPos ?_ ?_ ⟨hsym _ fun c hc => (hG.letters c hc).2.1, hG.symbols.1⟩
    ⟨hsym _ fun c hc => (hG.letters c hc).2.2, hG.symbols.2⟩ hG.lines
  · have h1 := tokens_le (inAlphabet T.letters) (inAlphabet T.separators) lc (decodeText text)
    have h2 := decodeText_length text
    have h3 := hG.size
    unfold CorpusConf.sentences
    omega
  · intro s hs w hw
    obtain ⟨s', hs', rfl⟩ := List.mem_map.1 hs
    obtain ⟨w', hw', rfl⟩ := List.mem_map.1 hw
    refine ⟨?_, hG.words s' hs' w' hw'⟩
    apply plain_utf8
    intro c hc
    have hc := (text_word hs' hw').2 c hc
    refine ⟨?_, ?_, ?_⟩ <;> rintro rfl
    · rw [(hG.letters ' ' (by simp)).1] at hc; cases hc
    · rw [(hG.letters '\t' (by simp)).1] at hc; cases hc
    · rw [(hG.letters '\n' (by simp)).1] at hc; cases hc

/-- Build can be run to its end. -/
theorem build_ends (start fin : Bytes) (order : Nat) (source : List (List Bytes)) :
    ∃ st, BuildReachable start fin order source st ∧ st.returned = true := by
  obtain ⟨h1, f, h2⟩ := C42_terminates (start := start) (fin := fin) (order := order) (source := source)
  have : ∀ n st, BuildReachable start fin order source st → f st ≤ n → ∃ st, BuildReachable start fin order source st ∧ st.returned = true := by
    intro n
    induction n with
    | zero =>
      intro st hr hf
      cases hret : st.returned with
      | true => exact ⟨st, hr, hret⟩
      | false =>
        obtain ⟨st', hst⟩ := h1 st hr hret
        have := h2 _ _ hst
        omega
    | succ n ih =>
      intro st hr hf
      cases hret : st.returned with
      | true => exact ⟨st, hr, hret⟩
      | false =>
        obtain ⟨st', hst⟩ := h1 st hr hret
        have := h2 _ _ hst
        exact ih st' (hr.step hst) (by omega)
  exact this _ _ .init (Nat.le_refl _)

theorem retrieve_mono {c : LMConf} {r : Reader} {a : Nat} {x y} (hx : retrieveAll lower sort c a r = some x)
    (hy : ∃ n, ∀ fuel, n ≤ fuel → retrieveAll lower sort c fuel r = some y) : x = y := by
  obtain ⟨n, hn⟩ := hy
  have h1 := hn (max n a) (by omega)
  unfold retrieveAll at hx h1
  obtain ⟨z, hz, rfl⟩ := Option.map_eq_some_iff.1 hx
  rw [all_le (Nat.le_max_right n a) hz] at h1
  simpa using h1

theorem chars_of_gram {start fin : List Char} {corpus : List (List (List Char))} {p : List Bytes}
    (h : corpusCount (utf8 start) (utf8 fin) (corpus.map fun s => s.map utf8) p ≠ 0) : ∃ g : List (List Char), p = g.map utf8 := by
  obtain ⟨s', hs, _, hz, hm⟩ := corpusCount_mem h
  obtain ⟨s, _, rfl⟩ := List.mem_map.1 hs
  have : ∀ w ∈ p, ∃ v, w = utf8 v := by
    intro w hw
    rcases hm w hw with h | h | h
    · exact ⟨_, h⟩
    · obtain ⟨v, _, rfl⟩ := List.mem_map.1 h; exact ⟨v, rfl⟩
    · exact ⟨_, h⟩
  clear hm h hz
  induction p with
  | nil => exact ⟨[], rfl⟩
  | cons w p ih =>
    obtain ⟨g, rfl⟩ := ih fun v hv => this v (by simp [hv])
    obtain ⟨v, rfl⟩ := this w (by simp)
    exact ⟨v :: g, rfl⟩

/-- **C79** The command ends with one file for every order, and whatever it does the file of order k + 1 has exactly one line
for every sequence of k + 1 words that occurs in the sentences of the text (each put between the start and the end symbol), with
the number of its occurrences; and no other lines. -/
theorem C79_counts_partial (hl : ∀ c : Char, lower c.toNat = (lc c).toNat) (hs : ∀ l, (sort l).Perm l)
    {r : Reader} (hr : ∀ c ∈ r.chunks, c ≠ []) {B : Nat} (hG : GoodText T lc r.chunks.flatten B (2 ^ 30)) :
    (∃ outs, NGramCount lower sort (confOf T) r outs) ∧
    ∀ outs, NGramCount lower sort (confOf T) r outs → outs.length = T.order ∧
      ∀ (k : Nat) out, outs[k]? = some out → ∃ (F : List (List (List Char) × Nat)) (lines : List Bytes),
        out = lines.flatten ∧ List.Forall₂ (fun e l => IsLine e.1 e.2 l) F lines ∧ (F.map Prod.fst).Nodup ∧
        ∀ g n, (g, n) ∈ F ↔ g.length = k + 1 ∧ n = wordCount T.start T.fin (T.sentences lc r.chunks.flatten) g ∧ n ≠ 0 := by
  have hC := goodText_corpus hG (Nat.le_refl _)
  have hret := C79_sentences_partial (lower := lower) (sort := sort) hl hs (hG.letters ' ' (by simp)).1 hG.sep hr hG.sentences
  constructor
  · obtain ⟨n, hn⟩ := hret
    obtain ⟨st, h1, h2⟩ := build_ends (utf8 T.start) (utf8 T.fin) T.order
      ((T.sentences lc r.chunks.flatten).map fun s => s.map utf8)
    have ho : AnyOrder fun _ l => l := fun _ _ => .refl _
    obtain ⟨files, _, hw⟩ := corpus_written hC h1 h2 ho
    exact ⟨_, n, _, hn n (Nat.le_refl _), st, h1, h2, _, ho, hw⟩
  · rintro outs ⟨fuel, source, hsrc, st, h1, h2, ord, ho, hw⟩
    have := retrieve_mono hsrc hret
    simp only [Except.ok.injEq] at this
    subst this
    obtain ⟨files, hF, hw'⟩ := corpus_written hC h1 h2 ho
    have : outs = files.map fileText := by
      have := hw.symm.trans hw'
      simpa using this
    subst this
    refine ⟨by rw [List.length_map]; exact hF.len, ?_⟩
    intro k out hk
    rw [List.getElem?_map] at hk
    obtain ⟨F, hk', rfl⟩ := Option.map_eq_some_iff.1 hk
    have hmem := hF.mem k F hk'
    have hnd := hF.nodup k F hk'
    have hklt : k < T.order := by
      have := (List.getElem?_eq_some_iff.1 hk').1
      rw [hF.len] at this; exact this
    -- the entries in characters
    obtain ⟨F', hF'⟩ : ∃ F' : List (List (List Char) × Nat), F = F'.map fun e => (e.1.map utf8, e.2) := by
      have : ∀ e ∈ F, ∃ e' : List (List Char) × Nat, e = (e'.1.map utf8, e'.2) := by
        rintro ⟨p, n⟩ he
        obtain ⟨_, b, c⟩ := (hmem p n).1 he
        obtain ⟨g, rfl⟩ := chars_of_gram (limited_ne (by rw [← b]; exact c)).2.2
        exact ⟨(g, n), rfl⟩
      clear hmem hnd hk hk'
      induction F with
      | nil => exact ⟨[], rfl⟩
      | cons e F ih =>
        obtain ⟨F', rfl⟩ := ih fun x hx => this x (by simp [hx])
        obtain ⟨e', rfl⟩ := this e (by simp)
        exact ⟨e' :: F', rfl⟩
    subst hF'
    refine ⟨F', F'.map fun e => nGramLine (e.1.map utf8) e.2, ?_, ?_, ?_, ?_⟩
    · unfold fileText
      rw [List.flatMap_map, List.flatMap_def]
    · rw [List.forall₂_map_right_iff]
      apply List.forall₂_same.2
      intro e _
      obtain ⟨d1, d2, d3⟩ := decimal_spec e.2
      refine ⟨decimal e.2, ?_, d3, d1, ?_⟩
      · rw [nGramLine_eq]; simp [lineText, joined]
      · exact d2
    · rw [List.map_map] at hnd
      have : (Prod.fst ∘ fun e : List (List Char) × Nat => (e.1.map utf8, e.2)) = (fun g => g.map utf8) ∘ Prod.fst := rfl
      rw [this, ← List.map_map] at hnd
      exact List.Nodup.of_map _ hnd
    · intro g n
      have hm := hmem (g.map utf8) n
      have : (g, n) ∈ F' ↔ (g.map utf8, n) ∈ F'.map fun e => (e.1.map utf8, e.2) := by
        constructor
        · intro h; exact List.mem_map.2 ⟨_, h, rfl⟩
        · intro h
          obtain ⟨⟨g', n'⟩, h1, h2⟩ := List.mem_map.1 h
          simp only [Prod.mk.injEq] at h2
          rw [← utf8_map_inj h2.1, ← h2.2]; exact h1
      rw [this, hm, List.length_map]
      constructor
      · rintro ⟨a, b, c⟩
        refine ⟨a, ?_, c⟩
        rw [b]; unfold limited wordCount
        rw [if_pos ⟨by simp; omega, by simp; omega⟩]
      · rintro ⟨a, b, c⟩
        refine ⟨a, ?_, c⟩
        rw [b]; unfold limited wordCount
        rw [if_pos ⟨by simp; omega, by simp; omega⟩]

/-- **C79** A text (below 64 MiB, with at least one word, order from 2 to 255) can be trained on: the hypotheses of C71 hold for
its sentences … -/
theorem C79_training {text : Bytes} {B : Nat} (hG : GoodText T lc text B (2 ^ 26)) (hord : 2 ≤ T.order) (hord' : T.order < 256)
    (hsym : T.start ≠ [] ∧ T.fin ≠ []) (hone : ∃ s ∈ T.sentences lc text, s ≠ []) :
    Training T.start T.fin T.order (T.sentences lc text) := by
  refine ⟨goodText_corpus hG (by decide), hsym, ?_, hone, hord, hord', ?_⟩
  · intro s hs h
    exact (text_word hs h).1 rfl
  · have h1 := tokens_le (inAlphabet T.letters) (inAlphabet T.separators) lc (decodeText text)
    have h2 := decodeText_length text
    have h3 := hG.size
    unfold CorpusConf.sentences
    omega

/-- **C79** … and the dictionary and the binary model that `build-lm` makes from the files of `ngram-count` are a stored model
of the sentences of the text in the sense of C71. -/
theorem C79_stored (hl : ∀ c : Char, lower c.toNat = (lc c).toNat) (hs : ∀ l, (sort l).Perm l)
    {r : Reader} (hr : ∀ c ∈ r.chunks, c ≠ []) {B : Nat} (hG : GoodText T lc r.chunks.flatten B (2 ^ 26)) {outs : List Bytes}
    (ho : NGramCount lower sort (confOf T) r outs) {first : Bytes} (hf : outs[0]? = some first) {f : Reader} {fs : List Reader}
    (hfd : Delivers f first) (hfs : List.Forall₂ Delivers fs outs) {mphSort : Dict → List Nat} {mphFuel : Nat}
    (hm : ∀ d, MphOrder d (mphSort d)) (hmf : mphFuel < 2 ^ 31) {words : List Bytes} {data : Bytes}
    (hst : ∃ n, ∀ fuel, n ≤ fuel → storeBinaryLM mphSort mphFuel fuel f fs = some (.ok (words, data))) :
    StoredModel T.start T.fin T.order (T.sentences lc r.chunks.flatten) words data := by
  obtain ⟨fuel, source, hsrc, st, h1, h2, ord, h3, hw⟩ := ho
  have hret := C79_sentences_partial (lower := lower) (sort := sort) hl hs (hG.letters ' ' (by simp)).1 hG.sep hr hG.sentences
  have := retrieve_mono hsrc hret
  simp only [Except.ok.injEq] at this
  subst this
  exact ⟨st, ord, outs, first, f, fs, mphSort, mphFuel, h1, h2, h3, hw, hf, hfd, hfs, hm, hmf, hst⟩

/-! ### the hypotheses are met -/

/-- English words, order 2, sentences end with '.', '!' or '?'. -/
def smallConf : CorpusConf := ⟨2, ["english".toList], [".!?".toList], "<s>".toList, "</s>".toList⟩

/-- "Go, go to it. It is -- go!" -/
def smallText : Bytes := utf8 "Go, go to it. It is -- go!".toList

theorem smallText_sentences : smallConf.sentences tinySpec.lower smallText =
    [["go".toList, "go".toList, "to".toList, "it".toList], ["it".toList, "is".toList, "go".toList]] := by
  unfold CorpusConf.sentences smallText
  rw [decodeText_utf8]
  decide +kernel

theorem smallText_good : GoodText smallConf tinySpec.lower smallText 4 (2 ^ 26) where
  orderPos := by decide
  letters := by decide +kernel
  sep := by decide +kernel
  size := by decide +kernel
  sentences := by decide +kernel
  words := by rw [smallText_sentences]; decide +kernel
  symbols := by decide +kernel
  lines := by decide

/-- The hypotheses of C79 are met, and the counts are not trivial. -/
example : (∀ c : Char, asciiLower c.toNat = (tinySpec.lower c).toNat) ∧
    wordCount smallConf.start smallConf.fin (smallConf.sentences tinySpec.lower smallText) ["go".toList] = 3 ∧
    Training smallConf.start smallConf.fin smallConf.order (smallConf.sentences tinySpec.lower smallText) :=
  ⟨tiny_describes.lower, by rw [smallText_sentences]; decide +kernel,
    C79_training smallText_good (by decide) (by decide) (by decide) ⟨_, by rw [smallText_sentences]; simp; exact .inl rfl, by simp⟩⟩

/-- "a a a … ", n times. -/
def manyAs : Nat → List Char
  | 0 => []
  | n + 1 => 'a' :: ' ' :: manyAs n

theorem manyAs_length : ∀ n, (manyAs n).length = 2 * n
  | 0 => rfl
  | n + 1 => by rw [manyAs, List.length_cons, List.length_cons, manyAs_length n]; omega

theorem manyAs_mem : ∀ n, ∀ c ∈ manyAs n, c = 'a' ∨ c = ' '
  | 0, c, h => by simp [manyAs] at h
  | n + 1, c, h => by
    simp only [manyAs, List.mem_cons] at h
    rcases h with h | h | h
    · exact .inl h
    · exact .inr h
    · exact manyAs_mem n c h

/-- **C79** is false, a text: "b." and 40000 times "a ". All its words have one letter, but the sentence of the a's is too long:
only the word "b" is counted. -/
theorem C79_long_sentence_loses_words : ∃ text : Bytes,
    wordCount smallConf.start smallConf.fin (smallConf.sentences tinySpec.lower text) ["a".toList] ≠ 0 ∧
    ∀ r, Delivers r text → ∃ n, ∀ fuel, n ≤ fuel → retrieveAll asciiLower id (confOf smallConf) fuel r = some (.ok [[[98]]]) := by
  obtain ⟨n, hn⟩ : ∃ n, n = 39999 := ⟨_, rfl⟩
  obtain ⟨L, hL⟩ : ∃ L, L = manyAs (n + 1) := ⟨_, rfl⟩
  have hlen : L.length = 80000 := by rw [hL, manyAs_length, hn]
  have hLc : ∀ c ∈ L, c = 'a' ∨ c = ' ' := by rw [hL]; exact manyAs_mem _
  have hne : L ≠ [] := by intro h; rw [h] at hlen; simp at hlen
  have hsepL : ∀ c ∈ L, inAlphabet smallConf.separators c = false := by
    intro c hc
    rcases hLc c hc with rfl | rfl <;> decide +kernel
  have hs : sentences (fun x => inAlphabet smallConf.separators (Char.ofNat x)) (utf8 ('b' :: '.' :: L)) = [utf8 ['b'], utf8 L] := by
    rw [Sent.sentences_eq, pieces_charsOf, charsOf_utf8]
    have h1 := Sent.sentP_run (sep := fun x => inAlphabet smallConf.separators (Char.ofNat x)) (A := [charPair 'b'])
      (by intro p hp; simp only [List.mem_singleton] at hp; subst hp; decide +kernel) (by simp) (p := charPair '.') (by decide +kernel)
      (L.map charPair)
    have h2 := Sent.sentP_last (sep := fun x => inAlphabet smallConf.separators (Char.ofNat x)) (A := L.map charPair)
      (by
        intro p hp
        obtain ⟨c, hc, rfl⟩ := List.mem_map.1 hp
        have := hsepL c hc
        have hc' : Char.ofNat c.toNat = c := Char.toNat_inj.1 (ofNat_toNat c.valid)
        show inAlphabet smallConf.separators (Char.ofNat c.toNat) = false
        rw [hc']; exact this) (by simpa using hne)
    rw [List.map_cons, List.map_cons]
    refine (h1.trans ?_)
    rw [h2]
    have e1 : Sent.cat [charPair 'b'] = utf8 ['b'] := joinChars_charPair ['b']
    have e2 : Sent.cat (L.map charPair) = utf8 L := joinChars_charPair L
    rw [e1, e2]
  have hsent : smallConf.sentences tinySpec.lower (utf8 ('b' :: '.' :: L)) =
      [["b".toList], maximalRuns (inAlphabet smallConf.letters) (L.map tinySpec.lower)] := by
    rw [← sentences_words (sort := id) (fun _ => .refl _)]
    have hse : sentences (Alphabet.create id (confOf smallConf).separators).has (utf8 ('b' :: '.' :: L)) =
        sentences (fun x => inAlphabet smallConf.separators (Char.ofNat x)) (utf8 ('b' :: '.' :: L)) := by
      unfold sentences
      rw [splitOnP_congr fun p hp => ?_]
      show _ = inAlphabet smallConf.separators (Char.ofNat p.1)
      rw [← create_has (sort := id) (fun _ => .refl _) smallConf.separators, ofNat_toNat (pieces_valid _ p hp)]
      rfl
    rw [hse, hs, List.map_cons, List.map_cons, List.map_nil, decodeText_utf8, decodeText_utf8]
    congr 1
  refine ⟨utf8 ('b' :: '.' :: L), ?_, ?_⟩
  · unfold wordCount
    refine corpusCount_word (s := (maximalRuns (inAlphabet smallConf.letters) (L.map tinySpec.lower)).map utf8) ?_ ?_ ?_
    · rw [hsent]; simp
    · rw [hL, manyAs]
      unfold maximalRuns
      rw [List.map_cons, List.map_cons, List.splitOnP_cons_eq_if_modifyHead, if_neg (by decide +kernel),
        List.splitOnP_cons_eq_if_modifyHead, if_pos (by decide +kernel)]
      simp
    · have : "a".toList ∈ maximalRuns (inAlphabet smallConf.letters) (L.map tinySpec.lower) := by
        rw [hL, manyAs]
        unfold maximalRuns
        rw [List.map_cons, List.map_cons, List.splitOnP_cons_eq_if_modifyHead, if_neg (by decide +kernel),
          List.splitOnP_cons_eq_if_modifyHead, if_pos (by decide +kernel)]
        simp only [List.modifyHead_cons]
        rw [List.filter_cons, if_pos (by simp)]
        exact List.mem_cons.2 (.inl (by decide +kernel))
      have := List.mem_map_of_mem (f := utf8) this
      exact List.mem_append_left _ (List.mem_cons_of_mem _ this)
  · intro r hr
    have h := C79_long_sentence_ignored (T := smallConf) (lower := asciiLower) (lc := tinySpec.lower) (sort := id)
      tiny_describes.lower (fun _ => .refl _) (by decide +kernel) (by decide +kernel) (r := r) hr.chunks (ss := [utf8 ['b']]) (more := [])
      (long := utf8 L) (by rw [hr.text, hs]; rfl) (by decide +kernel) (by
        have : L.length ≤ (utf8 L).length := by
          have := decodeText_length (utf8 L)
          rw [decodeText_utf8] at this
          exact this
        omega)
    rw [hr.text, hsent] at h
    exact h

end Verif.Props
