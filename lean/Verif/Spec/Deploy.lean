import Verif.Spec.Config
import Verif.Spec.WordSearch
/-
Independent specification of what a description of an index means for the words: which letters, n-grams, pads and wraps.
-/
namespace Verif.Spec

/-- Is the character a letter of this entry of the alphabet? The entry names an alphabet or lists the letters. -/
def inEntry (e : List Char) (x : Char) : Bool :=
  if e = "english".toList then decide ('a' ≤ x ∧ x ≤ 'z')
  else if e = "russian".toList then decide (('а' ≤ x ∧ x ≤ 'я') ∨ x = 'ё')
  else if e = "numbers".toList then decide ('0' ≤ x ∧ x ≤ '9')
  else decide (x ∈ e)

/-- The words of the index; `lower` is the lower-casing of characters. -/
def IndexText.wordConf (d : IndexText) (lower : Char → Char) : WordConf where
  n := d.nGramSize.toNat
  letter := fun x => d.alphabet.any fun e => inEntry e x
  pad := d.pad
  before := d.wrap.1
  behind := d.wrap.2
  lower := lower

/-- The size of the n-grams is between 1 and 8. -/
structure ProperIndex (d : IndexText) : Prop where
  pos : 1 ≤ d.nGramSize
  le : d.nGramSize ≤ 8

end Verif.Spec
