import Verif.Props.Eval
import Verif.Props.CorrectionsExamples
/- C93: the hypotheses of the theorems about the eval commands are met. -/
namespace Verif.Props
open Verif Spec Verif.Eval Verif.WordSearch Verif.Scan

/-- Standard input: a query with a space before it and a tab behind it, a blank line with CRLF, a query without a line end. -/
def appleInput : Reader := ⟨[utf8 " app".toList, utf8 "le\t\n \r\nappl".toList], .eof, false⟩

def appleLines : List (List Char) := [" apple\t".toList, " ".toList, "appl".toList]

theorem apple_typed : Typed appleInput appleLines :=
  ⟨by decide +kernel, rfl, by decide +kernel, by decide +kernel⟩

example : appleLines.map askedQuery = [some "apple".toList, none, some "appl".toList] := by decide +kernel

/-- Two descriptions, the first one with another name. -/
def appleConfig : List IndexDesc := [⟨false, "b", "/idx/b", none⟩, ⟨false, "a", "/idx/a", some appleFile⟩]

/-- Non-vacuity of `C93_suggest`: a session with the file "apple" and both queries is answered. -/
example : ∃ (G : Gob) (_ : G.Lawful) (out : List (Shown (List (ℚ × Bytes)))),
    SuggestEval (f64Ops 0) toyRoaring G (fun _ m => m) (fun b => [b]) (fun b => [b]) id (fun _ => suggestTokenizer asciiLower id tinyConf)
      (fun _ => ⟨none, fun _ => none⟩) (some appleConfig) "a" (5 : Nat) (.num (1 / 2)) appleInput out none ∧
    Complete askedQuery (BestMatches tinySpec cosineSim oldWords ((1 / 2 : ℚ) : ℝ) 5) appleLines out := by
  obtain ⟨G, LG⟩ := gob_contract_satisfiable
  obtain ⟨n, hn, hn'⟩ : ∃ n, reindexBytes oldWords = some n ∧ n < 2 ^ 32 := ⟨5, by decide +kernel, by decide⟩
  obtain ⟨b, hd, hb, he⟩ := reindex_data old_faithful hn
  have hsize : ∀ b hd, indexData toyRoaring (fun _ m => m) (suggestTokenizer asciiLower id tinyConf) (ramDict (oldWords.map utf8)) = .ok (b, hd) →
      b.length < 2 ^ 32 := by
    intro b' hd' he'
    rw [he] at he'
    cases he'
    omega
  have hl : LastNamed toyRoaring G (fun _ m => m) (fun b => [b]) (fun b => [b]) (fun _ => suggestTokenizer asciiLower id tinyConf)
      (fun _ => ⟨none, fun _ => none⟩) appleConfig "a" oldWords ⟨false, "a", "/idx/a", some appleFile⟩ :=
    ⟨⟨[⟨false, "b", "/idx/b", none⟩], [], rfl, by simp⟩, rfl, ⟨appleFile, rfl, by decide, apple_short, apple_lines⟩, (fun h => nomatch h)⟩
  have hq : ∀ l ∈ appleLines, strip l ≠ [] → tinySpec.Faithful (tinySpec.wordText (strip l)) ∧
      (tinySpec.grams (tinySpec.wordText (strip l))).length ≤ 65535 := by
    unfold WordConf.Faithful; decide +kernel
  obtain ⟨out, h⟩ := C93_suggest_answers_partial toyLawful LG (fun _ _ => .refl _) tiny_describes (words := oldWords) (by decide) old_faithful
    (by decide +kernel) (by decide +kernel) (by simp) (by simp) hsize (by decide) (msort := id) (fun _ => .refl _) hl rfl
    ⟨[⟨false, "b", "/idx/b", none⟩], [], rfl, by simp⟩ apple_typed hq (oob := 0) (α := 1 / 2) (by norm_num) (by norm_num) (K := 5) (by decide)
    (by
      have : ∀ l ∈ appleLines, strip l ≠ [] → ∃ w ∈ oldWords, (cosineMetric (f64Ops 0)).minY (1 / 2)
          (tinySpec.grams (tinySpec.wordText (strip l))).length ≤ (tinySpec.grams (tinySpec.wordText w)).length := by decide +kernel
      exact this)
  refine ⟨G, LG, out, h, ?_⟩
  rcases C93_suggest toyLawful LG (fun _ _ => .refl _) tiny_describes (words := oldWords) (by decide) old_faithful
    (by decide +kernel) (by decide +kernel) (by simp) (by simp) hsize (by decide) (fun _ => .refl _) hl rfl
    apple_typed hq (by norm_num) (by norm_num) (by decide) h with ⟨_, h⟩ | ⟨_, _, _, _, _, _, h, _⟩
  · exact h
  · cases h

/-- Standard input for the language model and the spell checker: "Apple pi", an empty line, "tart". -/
def pieInput : Reader := ⟨[utf8 "Apple pi\n\ntart\n".toList], .eof, true⟩

theorem pie_typed : Typed pieInput ["Apple pi".toList, [], "tart".toList] :=
  ⟨by decide +kernel, rfl, by decide +kernel, by decide +kernel⟩

/-- Non-vacuity of `C93_lm`; the line "tart" has the groups "<S> tart" (not in the corpus, "<S>" is: back-off) and "tart </S>". -/
example : (∃ data out e, StoredModel markStart markEnd 2 pieCorpus (pieWords.map utf8) data ∧
      LMEval asciiLower pieAlphabet (pieWords.map utf8) data 2 (utf8 markStart) (utf8 markEnd) pieInput out e) ∧
    askedWords cliSpec.lower pieAlphabet "tart".toList = some ["tart".toList] ∧
    wordGroups 2 (markStart :: (["tart".toList] ++ [markEnd])) = [[markStart, "tart".toList], ["tart".toList, markEnd]] ∧
    wordCount markStart markEnd pieCorpus [markStart, "tart".toList] = 0 ∧ wordCount markStart markEnd pieCorpus [markStart] = 2 ∧
    wordCount markStart markEnd pieCorpus ["tart".toList, markEnd] = 1 := by
  obtain ⟨data, hst⟩ := pie_stored
  refine ⟨?_, ?_, by decide +kernel, by decide +kernel, by decide +kernel, by decide +kernel⟩
  · obtain ⟨out, e, h⟩ := (C93_lm pie_training hst tiny_describes.lower (a := pieAlphabet) pie_typed).1
    exact ⟨data, out, e, hst, h⟩
  · unfold askedWords
    rw [pieAlphabet_has]; decide +kernel

/-- Non-vacuity of `C93_spellchecker_partial`. -/
example : ∃ (data : Bytes) (G : Gob) (_ : G.Lawful) (val : LMScore → ℚ) (out : List (Shown (List Bytes))) (e : Option Err),
    StoredModel markStart markEnd 2 pieCorpus (pieWords.map utf8) data ∧ AccurateLog val ∧
    PredictEval (f64Ops 0) val (buildSpellChecker toyRoaring G (fun _ m => m) (fun b => [b]) (fun b => [b]) id asciiLower id cliConf "words" pieAlphabet
      (pieWords.map utf8) data 2 (utf8 markStart) (utf8 markEnd)) pieInput out e ∧ e = none ∧
    Complete askedLine (LineCorrected markStart markEnd 2 pieCorpus cliSpec pieAlphabet) ["Apple pi".toList, [], "tart".toList] out := by
  obtain ⟨data, hst⟩ := pie_stored
  obtain ⟨G, LG⟩ := gob_contract_satisfiable
  obtain ⟨val, hval⟩ := accurateLog_exists
  have hlast : ∀ l ∈ ["Apple pi".toList, [], "tart".toList], ∀ seq last,
      maximalRuns (fun x => pieAlphabet.has x.toNat) (trim ' ' (l.map cliSpec.lower)) = seq ++ [last] →
      (last = "pi".toList ∨ last = "tart".toList) ∧ seq.length ≠ 2 := by
    intro l hl seq last h
    rw [pieAlphabet_has] at h
    have h1 : (maximalRuns (someLetters "-.".toList) (trim ' ' (l.map cliSpec.lower))).getLast? = some last := by rw [h]; simp
    have h2 : (maximalRuns (someLetters "-.".toList) (trim ' ' (l.map cliSpec.lower))).length = seq.length + 1 := by rw [h]; simp
    have key : ∀ l ∈ ["Apple pi".toList, [], "tart".toList],
        ((maximalRuns (someLetters "-.".toList) (trim ' ' (l.map cliSpec.lower))).getLast? = none ∨
          (maximalRuns (someLetters "-.".toList) (trim ' ' (l.map cliSpec.lower))).getLast? = some "pi".toList ∨
          (maximalRuns (someLetters "-.".toList) (trim ' ' (l.map cliSpec.lower))).getLast? = some "tart".toList) ∧
        (maximalRuns (someLetters "-.".toList) (trim ' ' (l.map cliSpec.lower))).length < 3 := by decide +kernel
    obtain ⟨k1, k2⟩ := key l hl
    refine ⟨?_, by omega⟩
    rw [h1] at k1
    rcases k1 with h | h | h
    · cases h
    · exact .inl (Option.some.inj h)
    · exact .inr (Option.some.inj h)
  have hgood : ∀ last, last = "pi".toList ∨ last = "tart".toList → GoodLast cliSpec last ∧
      ∃ w, wordCount markStart markEnd pieCorpus [w] ≠ 0 ∧
        (cosineMetric (f64Ops 0)).minY (1 / 2) (cliSpec.grams (cliSpec.wordText last)).length ≤ (cliSpec.grams (cliSpec.wordText w)).length := by
    rintro last (rfl | rfl)
    · exact ⟨by refine goodLast_of ?_ ?_ ?_ <;> (try unfold WordConf.Faithful) <;> decide +kernel, "apple".toList, by decide +kernel, by decide +kernel⟩
    · exact ⟨by refine goodLast_of ?_ ?_ ?_ <;> (try unfold WordConf.Faithful) <;> decide +kernel, "apple".toList, by decide +kernel, by decide +kernel⟩
  obtain ⟨out, e, h⟩ := C93_spellchecker_answers_partial (name := "words") (a := pieAlphabet) pie_training hst toyLawful LG (iorder := fun _ m => m)
    (fun _ _ => .refl _) (sd := fun b => [b]) (by simp) (sh := fun b => [b]) (by simp) (msort := id) (fun _ => .refl _) cli_describes
    pie_indexable pie_size pie_typed (val := val) (oob := 0) (fun l hl seq last h => hgood last (hlast l hl seq last h).1)
  obtain ⟨h1, h2⟩ := C93_spellchecker_partial (name := "words") (a := pieAlphabet) pie_training hst toyLawful LG (iorder := fun _ m => m)
    (fun _ _ => .refl _) (sd := fun b => [b]) (by simp) (sh := fun b => [b]) (by simp) (msort := id) (fun _ => .refl _) cli_describes
    pie_indexable pie_size pie_typed (fun l hl seq last h => ⟨(hgood last (hlast l hl seq last h).1).1, (hlast l hl seq last h).2⟩) hval h
  exact ⟨data, G, LG, val, out, e, hst, hval, h, h1, h2⟩

end Verif.Props
