import Verif.Spec.Text
import Verif.Spec.Metric
/-
Independent specification of the search for words: the words of the dictionary and the query are lists of characters; what
is compared are their sets of n-grams. Does not import the model (except the byte representation of texts).
-/
namespace Verif.Spec

/-- A description of an index, in terms of characters: the n-gram size, the letters of the alphabet, the pad (a text, maybe empty) that
replaces each other character, the texts put before and behind a word, and the lower-casing of characters. -/
structure WordConf where
  n : Nat
  letter : Char → Bool
  pad : List Char
  before : List Char
  behind : List Char
  lower : Char → Char

namespace WordConf
variable (c : WordConf)

/-- Characters outside the alphabet are replaced by the pad. -/
def normal (t : List Char) : List Char := t.flatMap fun x => if c.letter x then [x] else c.pad

/-- The text whose n-grams are taken for a word: wrapped, lower-cased, without spaces at the ends. -/
def wordText (w : List Char) : List Char := trim ' ' ((c.before ++ w ++ c.behind).map c.lower)

/-- … and for a prefix typed by a user: nothing is put behind it. -/
def prefixText (w : List Char) : List Char := trim ' ' ((c.before ++ w).map c.lower)

/-- The n-grams of a text, without repetitions: its windows of `n` characters; a text with less than `n` characters has no
n-gram, except that it is itself one if it has at least `n` bytes. -/
def grams (t : List Char) : List (List Char) :=
  if t.length < c.n then (if (utf8 t).length < c.n then [] else [c.normal t])
  else ((windows c.n t).map c.normal).eraseDups

/-- Different n-grams of the text are still different after the replacement (for example because the text has only
letters and pads). -/
def Faithful (t : List Char) : Prop :=
  ∀ x ∈ windows c.n t, ∀ y ∈ windows c.n t, c.normal x = c.normal y → x = y

/-- How similar is the word `w` to the query `q`? The similarity `sim` of their sets of n-grams. -/
noncomputable def wordSim (sim : Nat → Nat → Nat → ℝ) (q w : List Char) : ℝ :=
  let a := c.grams (c.wordText q)
  let b := c.grams (c.wordText w)
  sim a.length b.length (a.filter (· ∈ b)).length

/-- Does the word contain all n-grams of the prefix? -/
def matchesPrefix (p w : List Char) : Bool := (c.grams (c.prefixText p)).all (· ∈ c.grams (c.wordText w))

end WordConf
end Verif.Spec
