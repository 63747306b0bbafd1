import Verif.Spec.Corrections
import Verif.Spec.Scanner
/-
What the sentences and words of a text are, in terms of characters. Uses from the model only `decodeRune` (Go's UTF-8 decoding).
-/
namespace Verif.Spec

/-- The characters of a text as Go reads it: UTF-8, and U+FFFD for every byte that is not part of a valid sequence. -/
def decodeText (text : Bytes) : List Char := (pieces text).map fun p => Char.ofNat p.1

/-- The sentences of a text are the maximal runs of characters that are not separators; the words of a sentence are the maximal
runs of letters after lower-casing. -/
def textSentences (letter sep : Char → Bool) (lc : Char → Char) (text : List Char) : List (List (List Char)) :=
  (maximalRuns (fun c => !sep c) text).map fun s => maximalRuns letter (s.map lc)

/-- Is the character in the alphabet with this description? The named alphabets, else the characters listed. -/
def inAlphabet (desc : List (List Char)) (c : Char) : Bool :=
  desc.any fun e =>
    if e = "english".toList then decide ('a' ≤ c ∧ c ≤ 'z')
    else if e = "russian".toList then decide (('а' ≤ c ∧ c ≤ 'я') ∨ c = 'ё')
    else if e = "numbers".toList then decide ('0' ≤ c ∧ c ≤ '9')
    else decide (c ∈ e)

/-- The configuration of a language model, in terms of characters. -/
structure CorpusConf where
  order : Nat
  letters : List (List Char)
  separators : List (List Char)
  start : List Char
  fin : List Char

/-- The sentences of the text of a source file. -/
def CorpusConf.sentences (T : CorpusConf) (lc : Char → Char) (text : Bytes) : List (List (List Char)) :=
  textSentences (inAlphabet T.letters) (inAlphabet T.separators) lc (decodeText text)

/-- A line of an n-gram file: the words separated by blanks, a tab, the number in decimal, a newline. -/
structure IsLine (g : List (List Char)) (n : Nat) (line : Bytes) : Prop where
  eq : ∃ digits : Bytes, line = joined (g.map utf8) ++ [9] ++ digits ++ [10] ∧ digits ≠ [] ∧
    (∀ c ∈ digits, 48 ≤ c.toNat ∧ c.toNat ≤ 57) ∧ digits.foldl (fun v c => 10 * v + (c.toNat - 48)) 0 = n

end Verif.Spec
