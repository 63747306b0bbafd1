/-
What a stemmer does with the end of a word, and the published Snowball algorithm for Russian
(https://snowballstem.org/algorithms/russian/stemmer.html), on words as lists of characters.
-/
namespace Verif.Stemming

/-- Words as lists of characters. -/
def words (l : List String) : List (List Char) := l.map String.toList

/-- Cut off the longest end of the word that is in the list: what is left, and the end. -/
def cut (ends : List (List Char)) : List Char → Option (List Char × List Char)
  | [] => if [] ∈ ends then some ([], []) else none
  | c :: w => if c :: w ∈ ends then some ([], c :: w) else (cut ends w).map fun x => (c :: x.1, x.2)

/-- Remove the longest end that is in the list, if there is one. -/
def remove (ends : List (List Char)) (w : List Char) : Option (List Char) := (cut ends w).map (·.1)

/-- The word up to and including the first character with the property, and the rest. -/
def after (p : Char → Bool) : List Char → Option (List Char × List Char)
  | [] => none
  | c :: w => if p c then some ([c], w) else (after p w).map fun x => (c :: x.1, x.2)

/-- The shortest beginning of the word in which characters with these properties follow each other (not necessarily directly). -/
def through : List (Char → Bool) → List Char → Option (List Char)
  | [], _ => some []
  | p :: ps, w =>
    match after p w with
    | none => none
    | some (h, t) => (through ps t).map (h ++ ·)

namespace Russian

/-- The vowels. -/
def isVowel (c : Char) : Bool := c ∈ ['а', 'е', 'и', 'о', 'у', 'ы', 'э', 'ю', 'я']

/-- `ё` is treated as `е`. -/
def noYo (w : List Char) : List Char := w.map fun c => if c = 'ё' then 'е' else c

/-- The word up to its first vowel (included), and RV, the rest. Without a vowel RV is empty. -/
def splitRV (w : List Char) : List Char × List Char := (after isVowel w).getD (w, [])

/-- How many characters come before R2. R1 is behind the first non-vowel that follows a vowel, R2 behind the first non-vowel
that follows a vowel in R1. -/
def r2 (w : List Char) : Nat :=
  match through [isVowel, fun c => !isVowel c, isVowel, fun c => !isVowel c] w with
  | some b => b.length
  | none => w.length

def gerund1 : List (List Char) := words ["в", "вши", "вшись"]
def gerund2 : List (List Char) := words ["ив", "ивши", "ившись", "ыв", "ывши", "ывшись"]
def adjective : List (List Char) := words ["ее", "ие", "ые", "ое", "ими", "ыми", "ей", "ий", "ый", "ой", "ем", "им", "ым",
  "ом", "его", "ого", "ему", "ому", "их", "ых", "ую", "юю", "ая", "яя", "ою", "ею"]
def participle1 : List (List Char) := words ["ем", "нн", "вш", "ющ", "щ"]
def participle2 : List (List Char) := words ["ивш", "ывш", "ующ"]
def reflexive : List (List Char) := words ["ся", "сь"]
def verb1 : List (List Char) := words ["ла", "на", "ете", "йте", "ли", "й", "л", "ем", "н", "ло", "но", "ет", "ют", "ны", "ть",
  "ешь", "нно"]
def verb2 : List (List Char) := words ["ила", "ыла", "ена", "ейте", "уйте", "ите", "или", "ыли", "ей", "уй", "ил", "ыл", "им",
  "ым", "ен", "ило", "ыло", "ено", "ят", "ует", "уют", "ит", "ыт", "ены", "ить", "ыть", "ишь", "ую", "ю"]
def noun : List (List Char) := words ["а", "ев", "ов", "ие", "ье", "е", "иями", "ями", "ами", "еи", "ии", "и", "ией", "ей",
  "ой", "ий", "й", "иям", "ям", "ием", "ем", "ам", "ом", "о", "у", "ах", "иях", "ях", "ы", "ь", "ию", "ью", "ю", "ия", "ья", "я"]
def derivational : List (List Char) := words ["ост", "ость"]
def superlative : List (List Char) := words ["ейш", "ейше"]

/-- Remove the longest end of two groups; ends of the first group must follow а or я. -/
def removeAfterA (group1 group2 : List (List Char)) (w : List Char) : Option (List Char) :=
  match cut (group1 ++ group2) w with
  | none => none
  | some (r, s) => if s ∈ group2 ∨ r.getLast? = some 'а' ∨ r.getLast? = some 'я' then some r else none

/-- Step 1: a perfective gerund ending; otherwise a reflexive ending and then an adjectival (an adjective ending, possibly with
a participle ending before it), a verb or a noun ending. -/
def step1 (rv : List Char) : List Char :=
  match removeAfterA gerund1 gerund2 rv with
  | some r => r
  | none =>
    let rv := (remove reflexive rv).getD rv
    match remove adjective rv with
    | some r => (removeAfterA participle1 participle2 r).getD r
    | none =>
      match removeAfterA verb1 verb2 rv with
      | some r => r
      | none => (remove noun rv).getD rv

/-- Step 2: if the word ends with и, remove it. -/
def step2 (rv : List Char) : List Char := (remove [['и']] rv).getD rv

/-- Step 3: remove a derivational ending that lies in R2; `head` is the number of characters before RV, `p2` before R2. -/
def step3 (head p2 : Nat) (rv : List Char) : List Char :=
  match remove derivational rv with
  | some r => if p2 ≤ head + r.length then r else rv
  | none => rv

/-- Undouble н. -/
def undouble (rv : List Char) : List Char := if ['н', 'н'].isSuffixOf rv then rv.dropLast else rv

/-- Step 4: undouble н, or remove a superlative ending and undouble н, or remove ь. -/
def step4 (rv : List Char) : List Char :=
  match remove superlative rv with
  | some r => undouble r
  | none =>
    match remove [['ь']] rv with
    | some r => r
    | none => undouble rv

/-- The stem of a word. -/
def stem (w : List Char) : List Char :=
  let w := noYo w
  let (head, rv) := splitRV w
  head ++ step4 (step3 head.length (r2 w) (step2 (step1 rv)))

end Russian
end Verif.Stemming
