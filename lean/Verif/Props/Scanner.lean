import Verif.Proofs.Sentence
import Verif.Proofs.ScannerAny
import Verif.Model.MPH
/- Properties C53 and C54. -/
namespace Verif.Props
open Verif Verif.Scan Verif.Sent

/-! ### C53: sentences do not depend on the chunks -/

/-- C53, with two conditions: U+FFFD is not a separator, and no sentence is longer than 65532 bytes. Then the sentences the
scanner of a retriever yields are the maximal runs between separators of the whole text, however its bytes arrive, whether
the end of the input comes with the last bytes or alone, and also if reading fails in the end. Missing: see the `_wrong`
theorems below. -/
theorem C53_sentences_partial {sep : Nat → Bool} (hsep : sep runeError = false) {r : Reader}
    (hr : ∀ c ∈ r.chunks, c ≠ []) (hshort : ∀ s ∈ Spec.sentences sep r.chunks.flatten, s.length ≤ 65532) :
    (newScanner r).Yields (scanSentence sep) (Spec.sentences sep r.chunks.flatten)
      (if r.last = .eof then none else some r.last) :=
  yields_new (scanSentence_ok hsep) (scanSentence_fits hsep) hr hshort

/-- C53 on any text (U+FFFD is not a separator): reading always ends; either all sentences have been delivered and the error of
the reader is reported, or some of the first sentences and "token too long" — which the retriever's caller does not see, see
`C53_long_sentence_wrong`. No sentence is ever cut, joined, repeated or invented. -/
theorem C53_always_partial {sep : Nat → Bool} (hsep : sep runeError = false) {r : Reader} (hr : ∀ c ∈ r.chunks, c ≠ []) :
    ∃ ts e, (newScanner r).Yields (scanSentence sep) ts e ∧ ts <+: Spec.sentences sep r.chunks.flatten ∧
      (e ≠ some errTooLong → ts = Spec.sentences sep r.chunks.flatten) := by
  rcases yields_any (scanSentence_ok hsep) hr with h | ⟨ts, h1, h2⟩
  · exact ⟨_, _, h, List.prefix_refl _, fun _ => rfl⟩
  · exact ⟨_, _, h2, h1, fun h => absurd rfl h⟩

/-- Two ways to deliver the same bytes give the same sentences. -/
theorem C53_chunks_partial {sep : Nat → Bool} (hsep : sep runeError = false) {r r' : Reader}
    (hr : ∀ c ∈ r.chunks, c ≠ []) (hr' : ∀ c ∈ r'.chunks, c ≠ []) (hsame : r.chunks.flatten = r'.chunks.flatten)
    (hshort : ∀ s ∈ Spec.sentences sep r.chunks.flatten, s.length ≤ 65532)
    {ss ss' : List Bytes} {e e' : Option Err} (h : (newScanner r).Yields (scanSentence sep) ss e)
    (h' : (newScanner r').Yields (scanSentence sep) ss' e') : ss = ss' := by
  have h1 := C53_sentences_partial hsep hr hshort
  have h2 := C53_sentences_partial hsep hr' (by rw [← hsame]; exact hshort)
  rw [← hsame] at h2
  exact (yields_unique h h1).1.trans (yields_unique h' h2).1.symm

/-- The conditions are met by the text "a. Б!", delivered in three parts (one cut inside a letter), with the separators
'.' and '!'. -/
example : (∀ c ∈ ([[97, 46], [32, 0xD0], [0x91, 33]] : List Bytes), c ≠ []) ∧
    Spec.sentences (fun r => r == 46 || r == 33) ([[97, 46], [32, 0xD0], [0x91, 33]] : List Bytes).flatten =
      [[97], [32, 0xD0, 0x91]] := by
  decide +kernel

/-- After a sentence of more than 65536 bytes the rest of the text is lost; the retriever never asks the scanner for an
error. -/
theorem C53_long_sentence_wrong {sep : Nat → Bool} (hsep : sep runeError = false) {r : Reader}
    (hr : ∀ c ∈ r.chunks, c ≠ []) {ss more : List Bytes} {long : Bytes}
    (ht : Spec.sentences sep r.chunks.flatten = ss ++ long :: more) (hss : ∀ s ∈ ss, s.length ≤ 65532)
    (hlong : 65536 < long.length) :
    (newScanner r).Yields (scanSentence sep) ss (some errTooLong) :=
  yields_trunc (scanSentence_trunc hsep) hr ⟨long, more, ht, hss, hlong⟩

/-- More fuel does not change a result of `Scan`. -/
theorem scan_mono {split : Split} : ∀ (fuel : Nat) (s : Scanner) x, s.scan split fuel = some x →
    s.scan split (fuel + 1) = some x := by
  intro fuel
  induction fuel with
  | zero => intro s x h; simp [Scanner.scan] at h
  | succ fuel ih =>
    intro s x h
    rw [Scanner.scan] at h ⊢
    obtain ⟨o, ho⟩ : ∃ o, o = (if s.data.length > 0 ∨ s.err.isSome = true then split s.data s.err.isSome else (0, none)) :=
      ⟨_, rfl⟩
    rw [← ho] at h ⊢
    obtain ⟨a, o⟩ := o
    cases o with
    | some t => exact h
    | none =>
      simp only at h ⊢
      by_cases he : (s.advance a).err.isSome = true
      · rw [if_pos he] at h ⊢; exact h
      · rw [if_neg he] at h ⊢
        cases hg : (s.advance a).shift.grow with
        | none => rw [hg] at h; exact h
        | some g => rw [hg] at h; exact ih _ _ h

/-- More fuel does not change a result of the loop. -/
theorem all_mono {split : Split} : ∀ (fuel : Nat) (s : Scanner) x, s.all split fuel = some x →
    s.all split (fuel + 1) = some x := by
  intro fuel
  induction fuel with
  | zero => intro s x h; simp [Scanner.all] at h
  | succ fuel ih =>
    intro s x h
    rw [Scanner.all] at h ⊢
    cases hs : s.scan split fuel with
    | none => rw [hs] at h; simp at h
    | some o =>
      rw [scan_mono _ _ _ hs]
      rw [hs] at h
      obtain ⟨o, s'⟩ := o
      cases o with
      | none => exact h
      | some t =>
        simp only at h ⊢
        cases ha : Scanner.all split fuel s' with
        | none => rw [ha] at h; simp at h
        | some y => rw [ih _ _ ha]; rw [ha] at h; exact h

theorem yields_of_fuel {split : Split} {s : Scanner} {n : Nat} {ts : List Bytes} {e : Option Err}
    (h : s.all split n = some (ts, e)) : s.Yields split ts e := by
  refine ⟨n, fun fuel hf => ?_⟩
  obtain ⟨k, rfl⟩ : ∃ k, fuel = n + k := ⟨fuel - n, by omega⟩
  clear hf
  induction k with
  | zero => exact h
  | succ k ih => exact all_mono _ _ _ ih

/-- If U+FFFD is a separator, the sentences depend on the chunks: the letter "é" delivered whole is a sentence, delivered
byte by byte it vanishes. -/
theorem C53_replacement_char_wrong : ∃ (sep : Nat → Bool) (r r' : Reader), (∀ c ∈ r.chunks, c ≠ []) ∧
    (∀ c ∈ r'.chunks, c ≠ []) ∧ r.chunks.flatten = r'.chunks.flatten ∧ r.last = r'.last ∧
    (newScanner r).Yields (scanSentence sep) [[0xC3, 0xA9]] none ∧ (newScanner r').Yields (scanSentence sep) [] none := by
  refine ⟨fun r => r == runeError, ⟨[[0xC3, 0xA9]], .eof, false⟩, ⟨[[0xC3], [0xA9]], .eof, false⟩, by simp, by simp, by simp,
    rfl, yields_of_fuel (n := 8) ?_, yields_of_fuel (n := 8) ?_⟩
  · decide +kernel
  · decide +kernel

/-! ### C54: the in-memory dictionary -/

/-- C54, for files all of whose lines are shorter than 65536 bytes and can be read: the dictionary holds all lines, in
order, however the bytes arrive. Missing: longer lines and read errors, see the `_wrong` theorems. -/
theorem C54_all_lines_partial {r : Reader} (hr : ∀ c ∈ r.chunks, c ≠ [])
    (hshort : ∀ l ∈ r.chunks.flatten.splitOn 10, l.length < 65536) :
    ∃ n, ∀ fuel, n ≤ fuel → ramDictionaryLines fuel r = some (Spec.lines r.chunks.flatten) := by
  obtain ⟨n, h⟩ := yields_new scanLines_ok scanLines_fits hr hshort
  exact ⟨n, fun fuel hf => by simp [ramDictionaryLines, h fuel hf]⟩

/-- C54 on any file: opening the dictionary always ends, and what it holds are the first lines of the file, complete and in
order. Missing: all lines. -/
theorem C54_always_partial {r : Reader} (hr : ∀ c ∈ r.chunks, c ≠ []) :
    ∃ ts n, (∀ fuel, n ≤ fuel → ramDictionaryLines fuel r = some ts) ∧ ts <+: Spec.lines r.chunks.flatten := by
  rcases yields_any scanLines_ok hr with ⟨n, h⟩ | ⟨ts, h1, n, h⟩
  · exact ⟨_, n, fun fuel hf => by simp [ramDictionaryLines, h fuel hf], List.prefix_refl _⟩
  · exact ⟨ts, n, fun fuel hf => by simp [ramDictionaryLines, h fuel hf], h1⟩

example : Spec.lines ([[97, 98], [10, 99, 13], [10, 10, 100]] : List Bytes).flatten = [[97, 98], [99], [], [100]] := by
  decide +kernel

/-- A line of more than 65536 bytes and everything behind it is left out, without an error. -/
theorem C54_long_line_wrong {r : Reader} (hr : ∀ c ∈ r.chunks, c ≠ []) {pre : List Bytes} {long rest : Bytes}
    (ht : r.chunks.flatten = (pre.flatMap fun l => l ++ [10]) ++ (long ++ rest))
    (hpre : ∀ l ∈ pre, 10 ∉ l ∧ l.length < 65536) (hl : 10 ∉ long) (hlong : 65536 < long.length) :
    ∃ n, ∀ fuel, n ≤ fuel → ramDictionaryLines fuel r = some (pre.map Spec.chomp) := by
  obtain ⟨n, h⟩ := yields_trunc scanLines_trunc hr ⟨pre, long, rest, ht, rfl, hpre, hl, hlong⟩
  exact ⟨n, fun fuel hf => by simp [ramDictionaryLines, h fuel hf]⟩

/-- If reading fails, the dictionary holds the lines of the part that was read, without an error: `r` and the reader that
delivers the same bytes and then the end of the file give the same dictionary. -/
theorem C54_read_error_wrong {r : Reader} (hr : ∀ c ∈ r.chunks, c ≠ [])
    (hshort : ∀ l ∈ r.chunks.flatten.splitOn 10, l.length < 65536) :
    ∃ n, ∀ fuel, n ≤ fuel → ramDictionaryLines fuel r = ramDictionaryLines fuel { r with last := .eof } := by
  obtain ⟨n, h⟩ := C54_all_lines_partial hr hshort
  obtain ⟨n', h'⟩ := C54_all_lines_partial (r := { r with last := .eof }) hr hshort
  exact ⟨max n n', fun fuel hf => (h fuel (by omega)).trans (h' fuel (by omega)).symm⟩

/-- The key of a line is its number; other keys have the value "<nil/>". -/
theorem C54_get (words : List Bytes) (i : Nat) : (ramDict words).get i = words.getD i nilValue := by
  have aux : ∀ (l : List Bytes) (k j : Nat), k ≤ j →
      (((l.zipIdx k).map fun wi => (wi.2, wi.1)).find? fun e => e.1 == j) = (l[j - k]?).map fun w => (j, w) := by
    intro l
    induction l with
    | nil => intro k j _; simp
    | cons w l ih =>
      intro k j hkj
      by_cases h : k = j
      · subst h; simp
      · rw [List.zipIdx_cons, List.map_cons, List.find?_cons_of_neg (by simpa using h), ih (k + 1) j (by omega)]
        have : j - k = (j - (k + 1)) + 1 := by omega
        rw [this]; simp
  unfold Dict.get ramDict
  rw [aux words 0 i (Nat.zero_le _)]
  simp only [Nat.sub_zero, List.getD_eq_getElem?_getD]
  cases words[i]? <;> simp

end Verif.Props
