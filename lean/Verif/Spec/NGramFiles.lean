import Verif.Model.Scanner
import Verif.Spec.CountTrie
/- What C49, C62 and C63 refer to. -/
namespace Verif.Spec

/-- A word without blank, tab and newline: what a line of an n-gram file can hold. -/
def PlainWord (w : Bytes) : Prop := 32 ∉ w ∧ 9 ∉ w ∧ 10 ∉ w

/-- A reader that delivers these bytes, in nonempty chunks of any sizes, and then the end of the file. -/
structure Delivers (r : Reader) (text : Bytes) : Prop where
  chunks : ∀ c ∈ r.chunks, c ≠ []
  text : r.chunks.flatten = text
  eof : r.last = .eof

/-- The words of an n-gram as one text, separated by blanks. -/
def joined (g : List Bytes) : Bytes := [32].intercalate g

/-- The number of times the n-gram `p` occurs in the nonempty sentences of a corpus, each put between the start and the
end symbol. -/
def corpusCount (start fin : Bytes) (corpus : List (List Bytes)) (p : List Bytes) : Nat :=
  ((corpus.filter (· ≠ [])).map fun s => gramOccurrences p (start :: s ++ [fin])).sum

/-- The number of tokens of a corpus, with the start and the end symbols. -/
def corpusTokens (corpus : List (List Bytes)) : Nat := ((corpus.filter (· ≠ [])).map fun s => s.length + 2).sum

/-- The limits of C62 and C63: a corpus of fewer than 2^32-2 tokens (with the start and end symbols) whose words have no
blank, tab or newline and whose n-grams, with the count, fit into 64 KiB. -/
structure GoodCorpus (start fin : Bytes) (order : Nat) (corpus : List (List Bytes)) : Prop where
  orderPos : 1 ≤ order
  size : corpusTokens corpus ≤ 2 ^ 32 - 3
  plain : ∀ s ∈ corpus, ∀ w ∈ s, PlainWord w
  startPlain : PlainWord start
  finPlain : PlainWord fin
  short : ∀ p, p.length ≤ order → corpusCount start fin corpus p ≠ 0 → (joined p).length + 11 < 65536

end Verif.Spec
