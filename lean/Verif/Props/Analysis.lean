import Verif.Proofs.NGram
import Verif.Proofs.Words
import Verif.Proofs.Alphabet
/- C34, C37, C38, C39, C40: tokenizers and alphabets. -/
namespace Verif.Props
open Spec (utf8 windows maximalRuns trim)

/-! ### C37 n-grams -/

/-- C37. For `1 ≤ n ≤ 8` and every text of at least `n` characters the n-gram tokenizer returns the distinct windows of
`n` consecutive characters in the order of their first occurrence. -/
theorem C37_ngrams (n : Nat) (hn : 1 ≤ n) (hn8 : n ≤ 8) (cs : List Char) (h : n ≤ cs.length) :
    nGramTokenize n (utf8 cs) = .ok ((windows n cs).map utf8).eraseDups := by
  have := utf8_length_ge cs
  rw [nGramTokenize_utf8 hn hn8, if_neg (by omega), if_neg (by omega)]

/-- C37. The same, element-wise: a token is returned iff it occurs in the text as `n` consecutive characters; no token is
returned twice. -/
theorem C37_ngrams_mem (n : Nat) (hn : 1 ≤ n) (hn8 : n ≤ 8) (cs : List Char) (h : n ≤ cs.length) :
    ∃ tokens, nGramTokenize n (utf8 cs) = .ok tokens ∧ tokens.Nodup ∧
      ∀ t, t ∈ tokens ↔ ∃ pre w post : List Char, cs = pre ++ w ++ post ∧ w.length = n ∧ t = utf8 w := by
  refine ⟨_, C37_ngrams n hn hn8 cs h, nodup_eraseDups _, fun t => ?_⟩
  rw [List.mem_eraseDups, List.mem_map]
  constructor
  · rintro ⟨w, hw, rfl⟩
    unfold windows at hw
    rw [List.mem_map] at hw
    obtain ⟨i, hi, rfl⟩ := hw
    rw [List.mem_range] at hi
    refine ⟨cs.take i, (cs.drop i).take n, (cs.drop i).drop n, ?_, ?_, rfl⟩
    · rw [List.append_assoc, List.take_append_drop, List.take_append_drop]
    · rw [List.length_take, List.length_drop]; omega
  · rintro ⟨pre, w, post, rfl, hw, rfl⟩
    refine ⟨w, ?_, rfl⟩
    unfold windows
    rw [List.mem_map]
    refine ⟨pre.length, ?_, ?_⟩
    · rw [List.mem_range]; simp only [List.length_append]; omega
    · rw [List.append_assoc, List.drop_left, ← hw, List.take_left]

/-- C37, short texts: a text with fewer than `n` bytes has no tokens; a text with at least `n` bytes but fewer than `n`
characters (possible because some characters take several bytes) is its own only token. -/
theorem C37_short_text (n : Nat) (hn : 1 ≤ n) (hn8 : n ≤ 8) (cs : List Char) (h : cs.length < n) :
    nGramTokenize n (utf8 cs) = .ok (if (utf8 cs).length < n then [] else [utf8 cs]) := by
  rw [nGramTokenize_utf8 hn hn8]
  rw [if_pos h]

/-- C37. The tokenizer does not panic on any byte string, valid UTF-8 or not. -/
theorem C37_never_panics (n : Nat) (hn : 1 ≤ n) (hn8 : n ≤ 8) (text : List UInt8) :
    ∃ tokens, nGramTokenize n text = .ok tokens := ⟨_, nGramTokenize_eq hn hn8 text⟩

/-- Outside `1..8`: `n = 0` panics on every text. -/
theorem C37_zero_panics (text : List UInt8) : nGramTokenize 0 text = .error .panicDivide := by
  simp [nGramTokenize]

/-- Outside `1..8`: `n > 8` panics on every text of at least `n` bytes and 8 characters. -/
theorem C37_large_panics (n : Nat) (hn : 8 < n) (cs : List Char) (h : n ≤ (utf8 cs).length) (h8 : 8 ≤ cs.length) :
    nGramTokenize n (utf8 cs) = .error .panicIndex := by
  unfold nGramTokenize
  rw [if_neg (by omega), if_neg (by omega), nGramLoop_large hn _ _ _ _ rfl _ (by omega)]
  rw [rangeText_eq, charsOf_utf8]
  have : ∀ (l : List (Nat × Bytes)) off, (offsets off l).length = l.length := by
    intro l
    induction l with
    | nil => intro off; rfl
    | cons c l ih => intro off; simp [offsets, ih]
  rw [this]
  simpa using h8

example : 3 ≤ "привет".toList.length ∧
    nGramTokenize 3 (utf8 "abab".toList) = .ok [utf8 "aba".toList, utf8 "bab".toList] :=
  ⟨by decide, by rw [C37_ngrams 3 (by decide) (by decide) _ (by decide)]; decide⟩

/-! ### C38 words -/

/-- C38. The words of a text are the maximal runs of alphabet characters, in order. -/
theorem C38_words (a : Alphabet) (cs : List Char) :
    wordTokenize a (utf8 cs) = .ok ((maximalRuns (fun c => a.has c.toNat) cs).map utf8) :=
  wordTokenize_utf8 a cs

/-- C38 for the tokenizer of the language model: it sees the lower-cased text without leading and trailing spaces. The
lower-casing `lc` of characters is arbitrary. -/
theorem C38_lm_words (a : Alphabet) (lower : Nat → Nat) (lc : Char → Char)
    (hl : ∀ c : Char, lower c.toNat = (lc c).toNat) (cs : List Char) :
    lmTokenize lower a (utf8 cs) =
      .ok ((maximalRuns (fun c => a.has c.toNat) (trim ' ' (cs.map lc))).map utf8) := by
  unfold lmTokenize
  rw [toLowerText_utf8 lc lower hl, trimSpaces_utf8, wordTokenize_utf8]

/-- A text built from words and separators: a leading separator, then every word followed by its separator. -/
def wordsText (lead : List Char) (ws : List (List Char × List Char)) : List Char :=
  lead ++ ws.flatMap fun p => p.1 ++ p.2

/-- C38. The words do not depend on the separators: whatever nonempty runs of characters outside the alphabet separate
the words, the tokenizer returns the words. -/
theorem C38_separators (a : Alphabet) (lead : List Char) (ws : List (List Char × List Char))
    (hlead : ∀ c ∈ lead, a.has c.toNat = false)
    (hword : ∀ p ∈ ws, p.1 ≠ [] ∧ ∀ c ∈ p.1, a.has c.toNat = true)
    (hsep : ∀ p ∈ ws, p.2 ≠ [] ∧ ∀ c ∈ p.2, a.has c.toNat = false) :
    wordTokenize a (utf8 (wordsText lead ws)) = .ok (ws.map fun p => utf8 p.1) := by
  rw [C38_words]
  congr 1
  have key : ∀ (s t : List Char), (∀ c ∈ s, a.has c.toNat = false) →
      maximalRuns (fun c : Char => a.has c.toNat) (s ++ t) = maximalRuns (fun c : Char => a.has c.toNat) t := by
    intro s t hs
    induction s with
    | nil => rfl
    | cons c s ih =>
      rw [← ih fun x hx => hs x (by simp [hx])]
      unfold maximalRuns
      rw [List.cons_append, List.splitOnP_cons_eq_if_modifyHead, if_pos (by simp [hs c])]
      rfl
  have : maximalRuns (fun c : Char => a.has c.toNat) (wordsText lead ws) = ws.map Prod.fst := by
    unfold wordsText
    rw [key _ _ hlead]
    clear hlead
    induction ws with
    | nil => rfl
    | cons p ws ih =>
      obtain ⟨w, s⟩ := p
      rw [List.flatMap_cons, List.map_cons]
      obtain ⟨hw0, hw⟩ := hword (w, s) (by simp)
      obtain ⟨hs0, hs⟩ := hsep (w, s) (by simp)
      have hih := ih (fun p hp => hword p (by simp [hp])) (fun p hp => hsep p (by simp [hp]))
      cases s with
      | nil => exact absurd rfl hs0
      | cons c s =>
        simp only at hw hw0 hs ⊢
        have e : w ++ c :: s ++ ws.flatMap (fun p => p.1 ++ p.2) =
            w ++ c :: (s ++ ws.flatMap fun p => p.1 ++ p.2) := by simp
        rw [e]
        unfold maximalRuns
        rw [List.splitOnP_append_cons_of_forall_mem (by simpa using hw) c (by simpa using hs c (by simp))]
        rw [List.filter_cons_of_pos (by simpa using hw0)]
        congr 1
        have := key s (ws.flatMap fun p => p.1 ++ p.2) (fun x hx => hs x (by simp [hx]))
        unfold maximalRuns at this hih
        rw [this, hih]
  rw [this, List.map_map]
  rfl

/-- C38 for arbitrary bytes: proved for alphabets that do not contain the replacement character U+FFFD: each word is a
sequence of decoded alphabet characters; the tokenizer does not panic. Missing: alphabets containing U+FFFD, for which
the claim is false (next theorem). -/
theorem C38_any_bytes_partial (a : Alphabet) (ha : a.has 0xFFFD = false) (text : List UInt8) :
    wordTokenize a text = .ok ((maximalRuns (fun c => a.has c.1) (charsOf text)).map joinChars) := by
  apply wordTokenize_eq
  intro c hc hh
  apply charsOf_runeLen hc
  intro h
  rw [h] at hh
  rw [show runeError = 0xFFFD from rfl, ha] at hh
  cases hh

/-- C38 is false for an alphabet with U+FFFD: an invalid byte is counted as three bytes and the tokenizer panics. -/
theorem C38_invalid_utf8_panics : wordTokenize (.simple [0xFFFD]) [0xFF] = .error .panicSlice := by
  simp [wordTokenize, rangeText, wordLoop, wordFlush, sliceText, decodeRune, leadInfo, Alphabet.has, runeError, runeLen]

example : wordTokenize Alphabet.english (utf8 "go, to-day".toList) =
    .ok [utf8 "go".toList, utf8 "to".toList, utf8 "day".toList] := by
  have := C38_separators Alphabet.english [] [("go".toList, ", ".toList), ("to".toList, "-".toList)]
  rw [C38_words]
  simp [maximalRuns, Alphabet.english, Alphabet.has, List.splitOnP_cons_eq_if_modifyHead]

/-! ### C39 alphabets -/

/-- C39. A sequential alphabet has exactly the runes of its range, and lists exactly them. -/
theorem C39_sequential (min max r : Nat) :
    ((Alphabet.sequential min max).has r = true ↔ min ≤ r ∧ r ≤ max) ∧
      (r ∈ (Alphabet.sequential min max).chars ↔ min ≤ r ∧ r ≤ max) := by
  constructor
  · simp [Alphabet.has]
  · rw [Alphabet.chars, Alphabet.mem_seqChars]

/-- C39. A simple alphabet has exactly the listed characters. -/
theorem C39_simple (cs : List Char) (c : Char) :
    (Alphabet.simple (runesOf (utf8 cs))).has c.toNat = true ↔ c ∈ cs := by
  rw [Alphabet.has, decide_eq_true_eq, runesOf_utf8, List.mem_map]
  constructor
  · rintro ⟨d, hd, h⟩
    rwa [← Char.toNat_inj.1 h]
  · exact fun h => ⟨c, h, rfl⟩

/-- C39. A composite alphabet has exactly the characters of its parts. -/
theorem C39_composite (ps : List Alphabet) (r : Nat) :
    (Alphabet.composite ps).has r = true ↔ ∃ p ∈ ps, p.has r = true := by
  rw [Alphabet.has_composite, List.any_eq_true]

/-- C39. The named alphabets. -/
theorem C39_named (c : Char) :
    (Alphabet.english.has c.toNat = true ↔ 'a'.toNat ≤ c.toNat ∧ c.toNat ≤ 'z'.toNat) ∧
    (Alphabet.numbers.has c.toNat = true ↔ '0'.toNat ≤ c.toNat ∧ c.toNat ≤ '9'.toNat) ∧
    (Alphabet.russianAlphabet.has c.toNat = true ↔ ('а'.toNat ≤ c.toNat ∧ c.toNat ≤ 'я'.toNat) ∨ c = 'ё') := by
  refine ⟨?_, ?_, ?_⟩
  · exact (C39_sequential _ _ _).1
  · exact (C39_sequential _ _ _).1
  · unfold Alphabet.russianAlphabet
    rw [Alphabet.has]
    have e : c = 'ё' ↔ c.toNat = 0x451 := by
      rw [← Char.toNat_inj]; rfl
    rw [e]
    split
    · rename_i h
      simp only [h, or_true, iff_true]
      exact (C39_sequential _ _ _).1.2 (by decide)
    · rename_i h
      rw [(C39_sequential _ _ _).1]
      simp only [h, or_false]
      exact Iff.rfl

/-- C39. An alphabet created from a description has exactly the characters of its entries: the named alphabet, or else
the listed characters; `sort` is any sort of the parts. -/
theorem C39_create (sort : List Alphabet → List Alphabet) (hs : ∀ l, (sort l).Perm l) (desc : List (List Char))
    (c : Char) :
    (Alphabet.create sort (desc.map utf8)).has c.toNat = true ↔
      ∃ e ∈ desc,
        if e = "english".toList then 'a'.toNat ≤ c.toNat ∧ c.toNat ≤ 'z'.toNat
        else if e = "russian".toList then ('а'.toNat ≤ c.toNat ∧ c.toNat ≤ 'я'.toNat) ∨ c = 'ё'
        else if e = "numbers".toList then '0'.toNat ≤ c.toNat ∧ c.toNat ≤ '9'.toNat
        else c ∈ e := by
  rw [Alphabet.has_create hs]
  have hent : ∀ e : List Char, (Alphabet.ofEntry (utf8 e)).has c.toNat = true ↔
      if e = "english".toList then 'a'.toNat ≤ c.toNat ∧ c.toNat ≤ 'z'.toNat
        else if e = "russian".toList then ('а'.toNat ≤ c.toNat ∧ c.toNat ≤ 'я'.toNat) ∨ c = 'ё'
        else if e = "numbers".toList then '0'.toNat ≤ c.toNat ∧ c.toNat ≤ '9'.toNat
        else c ∈ e := by
    intro e
    have e1 : Alphabet.ascii "english" = utf8 "english".toList := by decide
    have e2 : Alphabet.ascii "russian" = utf8 "russian".toList := by decide
    have e3 : Alphabet.ascii "numbers" = utf8 "numbers".toList := by decide
    unfold Alphabet.ofEntry Alphabet.named
    rw [e1, e2, e3]
    by_cases h1 : e = "english".toList
    · rw [if_pos (congrArg utf8 h1), if_pos h1]; exact (C39_named c).1
    rw [if_neg (fun h => h1 (utf8_injective h)), if_neg h1]
    by_cases h2 : e = "russian".toList
    · rw [if_pos (congrArg utf8 h2), if_pos h2]; exact (C39_named c).2.2
    rw [if_neg (fun h => h2 (utf8_injective h)), if_neg h2]
    by_cases h3 : e = "numbers".toList
    · rw [if_pos (congrArg utf8 h3), if_pos h3]; exact (C39_named c).2.1
    rw [if_neg (fun h => h3 (utf8_injective h)), if_neg h3]
    exact C39_simple e c
  constructor
  · rintro ⟨b, hb, h⟩
    rw [List.mem_map] at hb
    obtain ⟨e, he, rfl⟩ := hb
    exact ⟨e, he, (hent e).1 h⟩
  · rintro ⟨e, he, h⟩
    exact ⟨utf8 e, List.mem_map_of_mem he, (hent e).2 h⟩

/-- The Russian alphabet has 'ё' but does not list it. -/
theorem C39_russian_chars :
    Alphabet.russianAlphabet.has 'ё'.toNat = true ∧ 'ё'.toNat ∉ Alphabet.russianAlphabet.chars := by
  refine ⟨(C39_named 'ё').2.2.2 (Or.inr rfl), ?_⟩
  unfold Alphabet.russianAlphabet
  rw [Alphabet.chars, Alphabet.chars, Alphabet.mem_seqChars]
  decide

example : (Alphabet.create id (["english".toList, "$-".toList].map utf8)).has '-'.toNat = true := by
  rw [C39_create id (fun l => List.Perm.refl l)]
  exact ⟨"$-".toList, by decide, by decide⟩

/-! ### C40 distinct tokens, C34 prefixes -/

/-- A lower-casing of characters and the description of an index given as characters. -/
structure CharConf where
  nGramSize : Nat
  alphabet : List Bytes
  pad : Bytes
  wrapStart : List Char
  wrapEnd : List Char

/-- The configuration in the form the code uses. -/
def CharConf.conf (d : CharConf) : TokenConf := ⟨d.nGramSize, d.alphabet, d.pad, utf8 d.wrapStart, utf8 d.wrapEnd⟩

theorem suggestTokenizer_utf8 (lower : Nat → Nat) (lc : Char → Char) (hl : ∀ c : Char, lower c.toNat = (lc c).toNat)
    (sort : List Alphabet → List Alphabet) (d : CharConf) (cs : List Char) :
    suggestTokenizer lower sort d.conf (utf8 cs) =
      (nGramTokenize d.nGramSize (utf8 (trim ' ' ((d.wrapStart ++ cs ++ d.wrapEnd).map lc)))).map
        (normalizeFilter (Alphabet.create sort d.alphabet) d.pad) := by
  unfold suggestTokenizer wrapTokenize filterTokenize CharConf.conf
  simp only
  rw [← utf8_append, ← utf8_append, toLowerText_utf8 lc lower hl, trimSpaces_utf8]

theorem autocompleteTokenizer_utf8 (lower : Nat → Nat) (lc : Char → Char)
    (hl : ∀ c : Char, lower c.toNat = (lc c).toNat)
    (sort : List Alphabet → List Alphabet) (d : CharConf) (cs : List Char) :
    autocompleteTokenizer lower sort d.conf (utf8 cs) =
      (nGramTokenize d.nGramSize (utf8 (trim ' ' ((d.wrapStart ++ cs).map lc)))).map
        (normalizeFilter (Alphabet.create sort d.alphabet) d.pad) := by
  unfold autocompleteTokenizer wrapTokenize filterTokenize CharConf.conf
  simp only
  rw [List.append_nil, ← utf8_append, toLowerText_utf8 lc lower hl, trimSpaces_utf8]

theorem normalizeToken_id (a : Alphabet) (pad : Bytes) (cs : List Char)
    (h : ∀ c ∈ cs, a.has c.toNat = true ∨ utf8 [c] = pad) : normalizeToken a pad (utf8 cs) = utf8 cs := by
  unfold normalizeToken
  rw [runesOf_utf8, List.flatMap_map]
  induction cs with
  | nil => rfl
  | cons c cs ih =>
    rw [List.flatMap_cons, ih fun x hx => h x (by simp [hx])]
    show _ = utf8 ([c] ++ cs)
    rw [utf8_append]
    congr 1
    split
    · rw [encodeRune_char]; simp [utf8]
    · rename_i hn
      rcases h c (by simp) with h | h
      · exact absurd h hn
      · exact h.symm

/-- C40, proved for texts in which every (lower-cased) character, including those of the wrap, is in the alphabet or is
the pad character. Missing: texts with other characters, for which the claim is false (`C40_duplicates`). -/
theorem C40_distinct_partial (lower : Nat → Nat) (lc : Char → Char) (hl : ∀ c : Char, lower c.toNat = (lc c).toNat)
    (sort : List Alphabet → List Alphabet) (d : CharConf) (hn : 1 ≤ d.nGramSize) (hn8 : d.nGramSize ≤ 8)
    (cs : List Char)
    (h : ∀ c ∈ (d.wrapStart ++ cs ++ d.wrapEnd).map lc,
      (Alphabet.create sort d.alphabet).has c.toNat = true ∨ utf8 [c] = d.pad) :
    ∃ tokens, suggestTokenizer lower sort d.conf (utf8 cs) = .ok tokens ∧ tokens.Nodup := by
  rw [suggestTokenizer_utf8 lower lc hl]
  generalize ht : trim ' ' ((d.wrapStart ++ cs ++ d.wrapEnd).map lc) = t
  have hmem : ∀ c ∈ t, (Alphabet.create sort d.alphabet).has c.toNat = true ∨ utf8 [c] = d.pad := by
    intro c hc
    apply h
    rw [← ht] at hc
    unfold trim at hc
    have h1 := (List.dropWhile_sublist _).subset (List.mem_reverse.1 hc)
    exact (List.dropWhile_sublist _).subset (List.mem_reverse.1 h1)
  rw [nGramTokenize_utf8 hn hn8]
  refine ⟨_, rfl, ?_⟩
  unfold normalizeFilter
  split
  · exact List.nodup_nil
  split
  · exact by simp
  · have hid : (((windows d.nGramSize t).map utf8).eraseDups).map
        (normalizeToken (Alphabet.create sort d.alphabet) d.pad) = ((windows d.nGramSize t).map utf8).eraseDups := by
      conv_rhs => rw [← List.map_id (((windows d.nGramSize t).map utf8).eraseDups)]
      apply List.map_congr_left
      intro x hx
      rw [List.mem_eraseDups, List.mem_map] at hx
      obtain ⟨w, hw, rfl⟩ := hx
      apply normalizeToken_id
      intro c hc
      apply hmem
      unfold windows at hw
      rw [List.mem_map] at hw
      obtain ⟨i, _, rfl⟩ := hw
      exact (List.drop_sublist _ _).subset ((List.take_sublist _ _).subset hc)
    rw [hid]
    exact nodup_eraseDups _

/-- A typical configuration: trigrams, English, `$` as pad and wrap. -/
def exampleConf : CharConf := ⟨3, [utf8 "english".toList], utf8 ['$'], ['$'], ['$']⟩

theorem exampleConf_has (c : Char) :
    (Alphabet.create id exampleConf.alphabet).has c.toNat = true ↔ 'a'.toNat ≤ c.toNat ∧ c.toNat ≤ 'z'.toNat := by
  have := C39_create id (fun l => List.Perm.refl l) ["english".toList] c
  rw [show exampleConf.alphabet = ["english".toList].map utf8 from rfl, this]
  constructor
  · rintro ⟨e, he, h⟩
    rw [List.mem_singleton] at he
    rwa [if_pos he] at h
  · intro h
    exact ⟨_, List.mem_singleton.2 rfl, by rwa [if_pos rfl]⟩

/-- C40 is false in general: characters outside the alphabet are replaced after the duplicates have been removed, so
that different n-grams become equal: the text "!!?!" gives the token "$$$" four times. -/
theorem C40_duplicates :
    suggestTokenizer id id exampleConf.conf (utf8 "!!?!".toList) =
      .ok (List.replicate 4 (utf8 "$$$".toList)) := by
  rw [suggestTokenizer_utf8 id id (fun _ => rfl), nGramTokenize_utf8 (by decide) (by decide)]
  have e1 : trim ' ' ((exampleConf.wrapStart ++ "!!?!".toList ++ exampleConf.wrapEnd).map id) = "$!!?!$".toList := by
    decide
  rw [e1, if_neg (by decide), if_neg (by decide)]
  have e2 : ((windows exampleConf.nGramSize "$!!?!$".toList).map utf8).eraseDups =
      ["$!!".toList, "!!?".toList, "!?!".toList, "?!$".toList].map utf8 := by decide
  rw [e2]
  have hno : ∀ c : Char, c ∈ ['$', '!', '?'] → (Alphabet.create id exampleConf.alphabet).has c.toNat = false := by
    intro c hc
    rw [← Bool.not_eq_true, exampleConf_has]
    revert c; decide
  have hd := hno '$' (by decide)
  have h1 := hno '!' (by decide)
  have h2 := hno '?' (by decide)
  have hnorm : ∀ w : List Char, (∀ c ∈ w, c ∈ ['$', '!', '?']) →
      normalizeToken (Alphabet.create id exampleConf.alphabet) exampleConf.pad (utf8 w) =
        utf8 (List.replicate w.length '$') := by
    intro w hw
    unfold normalizeToken
    rw [runesOf_utf8, List.flatMap_map]
    induction w with
    | nil => rfl
    | cons c w ih =>
      rw [List.flatMap_cons, ih (fun x hx => hw x (by simp [hx])), hno c (hw c (by simp))]
      rfl
  show Except.ok _ = _
  congr 1
  unfold normalizeFilter
  rw [List.map_map]
  simp only [List.map_cons, List.map_nil, Function.comp_apply]
  rw [hnorm _ (by decide), hnorm _ (by decide), hnorm _ (by decide), hnorm _ (by decide)]
  rfl

example : ∀ c ∈ (exampleConf.wrapStart ++ "apple".toList ++ exampleConf.wrapEnd).map id,
    (Alphabet.create id exampleConf.alphabet).has c.toNat = true ∨ utf8 [c] = exampleConf.pad := by
  intro c hc
  rw [exampleConf_has]
  revert c; decide

theorem trim_prefix (q r : List Char) :
    trim ' ' q = [] ∨ ∃ rest, trim ' ' (q ++ r) = trim ' ' q ++ rest := by
  unfold trim
  by_cases h : q.dropWhile (· == ' ') = []
  · left; rw [h]; rfl
  right
  have e : (q ++ r).dropWhile (· == ' ') = q.dropWhile (· == ' ') ++ r := by
    rw [List.dropWhile_append, if_neg (by simpa using h)]
  rw [e]
  generalize q.dropWhile (· == ' ') = p
  -- p.reverse.dropWhile keeps a last element that is no space
  have hsplit := List.takeWhile_append_dropWhile (p := (· == ' ')) (l := p.reverse)
  have hp : p = (p.reverse.dropWhile (· == ' ')).reverse ++ (p.reverse.takeWhile (· == ' ')).reverse := by
    rw [← List.reverse_append, hsplit, List.reverse_reverse]
  by_cases hnil : p.reverse.dropWhile (· == ' ') = []
  · rw [hnil]
    exact ⟨_, rfl⟩
  · obtain ⟨x, l, hx⟩ := List.exists_cons_of_ne_nil hnil
    have hxs : (x == ' ') = false := by
      have := List.head_dropWhile_not (p := (· == ' ')) (l := p.reverse) (by rw [hx]; simp)
      simpa [hx] using this
    rw [hx] at hp ⊢
    rw [hp]
    generalize (p.reverse.takeWhile (· == ' ')).reverse = z
    have : ((x :: l).reverse ++ z ++ r).reverse = (z ++ r).reverse ++ (x :: l) := by simp
    rw [this, List.dropWhile_append]
    split
    · rw [List.dropWhile_cons_of_neg (by simp [hxs])]
      exact ⟨[], by simp⟩
    · exact ⟨((z ++ r).reverse.dropWhile (· == ' ')).reverse, by simp⟩

theorem windows_prefix {α : Type} (n : Nat) (a b : List α) (h : n ≤ a.length) {w : List α} (hw : w ∈ windows n a) :
    w ∈ windows n (a ++ b) := by
  unfold windows at hw ⊢
  rw [List.mem_map] at hw ⊢
  obtain ⟨i, hi, rfl⟩ := hw
  rw [List.mem_range] at hi
  refine ⟨i, ?_, ?_⟩
  · rw [List.mem_range, List.length_append]; omega
  · rw [List.drop_append_of_le_length (by omega), List.take_append_of_le_length]
    rw [List.length_drop]; omega

/-- C34, proved for queries whose wrapped, lower-cased and trimmed text has at least `n` characters or fewer than `n`
bytes (then it has no terms): every term of the query is a term of every document that starts with the query.
Missing: queries with fewer than `n` characters that take at least `n` bytes, for which the claim is false
(`C34_short_query_loses`). -/
theorem C34_prefix_terms_partial (lower : Nat → Nat) (lc : Char → Char) (hl : ∀ c : Char, lower c.toNat = (lc c).toNat)
    (sort : List Alphabet → List Alphabet) (d : CharConf) (hn : 1 ≤ d.nGramSize) (hn8 : d.nGramSize ≤ 8)
    (query rest : List Char)
    (h : d.nGramSize ≤ (trim ' ' ((d.wrapStart ++ query).map lc)).length ∨
      (utf8 (trim ' ' ((d.wrapStart ++ query).map lc))).length < d.nGramSize) :
    ∃ qt dt, autocompleteTokenizer lower sort d.conf (utf8 query) = .ok qt ∧
      suggestTokenizer lower sort d.conf (utf8 (query ++ rest)) = .ok dt ∧ ∀ t ∈ qt, t ∈ dt := by
  rw [suggestTokenizer_utf8 lower lc hl, autocompleteTokenizer_utf8 lower lc hl, nGramTokenize_utf8 hn hn8,
    nGramTokenize_utf8 hn hn8]
  refine ⟨_, _, rfl, rfl, ?_⟩
  have hcat : (d.wrapStart ++ (query ++ rest) ++ d.wrapEnd).map lc =
      (d.wrapStart ++ query).map lc ++ (rest ++ d.wrapEnd).map lc := by simp
  rw [hcat]
  generalize hq : (d.wrapStart ++ query).map lc = q at h
  generalize (rest ++ d.wrapEnd).map lc = r
  rcases h with h | h
  · have hlen := utf8_length_ge (trim ' ' q)
    rw [if_neg (by omega), if_neg (by omega)]
    rcases trim_prefix q r with h0 | ⟨rest', h1⟩
    · rw [h0] at h; simp at h; omega
    · rw [h1]
      have := utf8_length_ge (trim ' ' q ++ rest')
      rw [List.length_append] at this
      rw [if_neg (by omega), if_neg (by rw [List.length_append]; omega)]
      intro t ht
      unfold normalizeFilter at ht ⊢
      rw [List.mem_map] at ht ⊢
      obtain ⟨x, hx, rfl⟩ := ht
      refine ⟨x, ?_, rfl⟩
      rw [List.mem_eraseDups, List.mem_map] at hx ⊢
      obtain ⟨w, hw, rfl⟩ := hx
      exact ⟨w, windows_prefix _ _ _ h hw, rfl⟩
  · rw [if_pos h]
    intro t ht
    cases ht

/-- A Russian configuration. -/
def russianConf : CharConf := ⟨3, [utf8 "russian".toList], utf8 ['$'], ['$'], ['$']⟩

/-- C34 is false for short queries of multi-byte characters: for trigrams the document "пар" starts with the query "п",
but the query has the term "$п" (two characters, three bytes), which the document does not have. -/
theorem C34_short_query_loses :
    ∃ qt dt, autocompleteTokenizer id id russianConf.conf (utf8 "п".toList) = .ok qt ∧
      suggestTokenizer id id russianConf.conf (utf8 ("п".toList ++ "ар".toList)) = .ok dt ∧ ¬ ∀ t ∈ qt, t ∈ dt := by
  rw [suggestTokenizer_utf8 id id (fun _ => rfl), autocompleteTokenizer_utf8 id id (fun _ => rfl),
    nGramTokenize_utf8 (by decide) (by decide), nGramTokenize_utf8 (by decide) (by decide)]
  refine ⟨_, _, rfl, rfl, ?_⟩
  have e1 : trim ' ' ((russianConf.wrapStart ++ "п".toList).map id) = "$п".toList := by decide
  have e2 : trim ' ' ((russianConf.wrapStart ++ ("п".toList ++ "ар".toList) ++ russianConf.wrapEnd).map id) =
      "$пар$".toList := by decide
  rw [e1, e2, if_neg (by decide), if_pos (by decide), if_neg (by decide), if_neg (by decide)]
  have e3 : ((windows russianConf.nGramSize "$пар$".toList).map utf8).eraseDups =
      ["$па".toList, "пар".toList, "ар$".toList].map utf8 := by decide
  rw [e3]
  have hno : ∀ c : Char, (Alphabet.create id russianConf.alphabet).has c.toNat = true ↔
      ('а'.toNat ≤ c.toNat ∧ c.toNat ≤ 'я'.toNat) ∨ c = 'ё' := by
    intro c
    have := C39_create id (fun l => List.Perm.refl l) ["russian".toList] c
    rw [show russianConf.alphabet = ["russian".toList].map utf8 from rfl, this]
    constructor
    · rintro ⟨e, he, h⟩
      rw [List.mem_singleton] at he
      rwa [he, if_neg (by decide), if_pos rfl] at h
    · intro h
      exact ⟨_, List.mem_singleton.2 rfl, by rwa [if_neg (by decide), if_pos rfl]⟩
  have hid : ∀ w : List Char, (∀ c ∈ w, c ∈ "$пар".toList) →
      normalizeToken (Alphabet.create id russianConf.alphabet) russianConf.pad (utf8 w) = utf8 w := by
    intro w hw
    apply normalizeToken_id
    intro c hc
    rw [hno]
    have hall : ∀ c ∈ "$пар".toList, (('а'.toNat ≤ c.toNat ∧ c.toNat ≤ 'я'.toNat) ∨ c = 'ё') ∨
        utf8 [c] = russianConf.pad := by decide
    exact hall c (hw c hc)
  unfold normalizeFilter
  rw [List.map_map]
  simp only [List.map_cons, List.map_nil, Function.comp_apply]
  rw [hid _ (by decide), hid _ (by decide), hid _ (by decide), hid _ (by decide)]
  decide

example : exampleConf.nGramSize ≤ (trim ' ' ((exampleConf.wrapStart ++ "ap".toList).map id)).length := by decide

end Verif.Props
