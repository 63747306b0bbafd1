import Verif.Spec.Stemming
/-
The published Snowball algorithm for English, "Porter2" (https://snowballstem.org/algorithms/english/stemmer.html, version 2.0),
on words as lists of characters. Words are expected in lower case: a capital `Y` is the algorithm's own mark of a `y` that is
a consonant.
-/
namespace Verif.Stemming.English

/-- The vowels. -/
def isVowel (c : Char) : Bool := c ∈ ['a', 'e', 'i', 'o', 'u', 'y']

/-- Whole words with a stem of their own, and words that are left as they are. -/
def exceptions : List (List Char × List Char) := [("skis", "ski"), ("skies", "sky"), ("dying", "die"), ("lying", "lie"),
  ("tying", "tie"), ("idly", "idl"), ("gently", "gentl"), ("ugly", "ugli"), ("early", "earli"), ("only", "onli"),
  ("singly", "singl"), ("sky", "sky"), ("news", "news"), ("howe", "howe"), ("atlas", "atlas"), ("cosmos", "cosmos"),
  ("bias", "bias"), ("andes", "andes")].map fun (w, s) => (w.toList, s.toList)

/-- An apostrophe at the start is dropped. -/
def dropQuote : List Char → List Char
  | '\'' :: w => w
  | w => w

/-- Every `y` behind a vowel becomes `Y`, from left to right; `prev` is the character before. -/
def markFrom (prev : Char) : List Char → List Char
  | [] => []
  | c :: w =>
    let c := if c = 'y' ∧ isVowel prev then 'Y' else c
    c :: markFrom c w

/-- Every `y` at the start or behind a vowel becomes `Y`. -/
def markY : List Char → List Char
  | [] => []
  | c :: w => let c := if c = 'y' then 'Y' else c; c :: markFrom c w

/-- How many characters come before R1: R1 is behind one of three beginnings, otherwise behind the first non-vowel that
follows a vowel. -/
def r1 (w : List Char) : Nat :=
  match (words ["gener", "commun", "arsen"]).find? fun b => b.isPrefixOf w with
  | some b => b.length
  | none =>
    match through [isVowel, fun c => !isVowel c] w with
    | some b => b.length
    | none => w.length

/-- How many characters come before R2: it is in R1 behind the first non-vowel that follows a vowel. -/
def r2 (w : List Char) : Nat :=
  match through [isVowel, fun c => !isVowel c] (w.drop (r1 w)) with
  | some b => r1 w + b.length
  | none => w.length

/-- Does the word end with a short syllable: non-vowel, vowel, non-vowel other than w, x, Y; or the word is a vowel and a
non-vowel? -/
def shortEnd (w : List Char) : Bool :=
  match w.reverse with
  | [c, v] => isVowel v && !isVowel c
  | c :: v :: n :: _ => !isVowel n && isVowel v && !isVowel c && !(c ∈ ['w', 'x', 'Y'])
  | _ => false

/-- Step 1a: an ending with an apostrophe is removed; then sses → ss; ied, ies → i (ie behind one letter); s is removed if there
is a vowel before, not directly before it. -/
def step1a (w : List Char) : List Char :=
  let w := (remove (words ["'", "'s", "'s'"]) w).getD w
  match cut (words ["sses", "ied", "ies", "s", "us", "ss"]) w with
  | none => w
  | some (r, s) =>
    if s = "sses".toList then r ++ "ss".toList
    else if s = "ied".toList ∨ s = "ies".toList then (if 2 ≤ r.length then r ++ "i".toList else r ++ "ie".toList)
    else if s = "s".toList then (if r.dropLast.any isVowel then r else w)
    else w

/-- Behind a removed ending of step 1b: at, bl, iz get an e; a double consonant loses one; a short word gets an e. -/
def step1bEnd (p1 : Nat) (w : List Char) : List Char :=
  if ["at", "bl", "iz"].any fun x => x.toList.isSuffixOf w then w ++ ['e']
  else if ["bb", "dd", "ff", "gg", "mm", "nn", "pp", "rr", "tt"].any fun x => x.toList.isSuffixOf w then w.dropLast
  else if p1 = w.length ∧ shortEnd w then w ++ ['e']
  else w

/-- Step 1b: eed, eedly → ee in R1; ed, edly, ing, ingly are removed if there is a vowel before. -/
def step1b (p1 : Nat) (w : List Char) : List Char :=
  match cut (words ["eed", "eedly", "ed", "edly", "ing", "ingly"]) w with
  | none => w
  | some (r, s) =>
    if s = "eed".toList ∨ s = "eedly".toList then (if p1 ≤ r.length then r ++ "ee".toList else w)
    else if r.any isVowel then step1bEnd p1 r
    else w

/-- Step 1c: y or Y → i behind a non-vowel that is not the first letter. -/
def step1c (w : List Char) : List Char :=
  match w.reverse with
  | c :: n :: _ :: _ => if (c = 'y' ∨ c = 'Y') ∧ !isVowel n then w.dropLast ++ ['i'] else w
  | _ => w

/-- The endings of step 2 and what they become. -/
def endings2 : List (List Char × List Char) := [("tional", "tion"), ("enci", "ence"), ("anci", "ance"), ("abli", "able"),
  ("entli", "ent"), ("izer", "ize"), ("ization", "ize"), ("ational", "ate"), ("ation", "ate"), ("ator", "ate"), ("alism", "al"),
  ("aliti", "al"), ("alli", "al"), ("fulness", "ful"), ("fulli", "ful"), ("ousli", "ous"), ("ousness", "ous"), ("iveness", "ive"),
  ("iviti", "ive"), ("biliti", "ble"), ("bli", "ble"), ("ogi", "og"), ("lessli", "less"), ("li", "")].map
  fun (w, s) => (w.toList, s.toList)

/-- Step 2, in R1; ogi only behind l, li only behind one of cdeghkmnrt. -/
def step2 (p1 : Nat) (w : List Char) : List Char :=
  match cut (endings2.map (·.1)) w with
  | none => w
  | some (r, s) =>
    if p1 ≤ r.length ∧ (s = "ogi".toList → r.getLast? = some 'l') ∧
        (s = "li".toList → ∃ c ∈ ['c', 'd', 'e', 'g', 'h', 'k', 'm', 'n', 'r', 't'], r.getLast? = some c) then
      r ++ (endings2.lookup s).getD []
    else w

/-- The endings of step 3 and what they become. -/
def endings3 : List (List Char × List Char) := [("tional", "tion"), ("ational", "ate"), ("alize", "al"), ("icate", "ic"),
  ("iciti", "ic"), ("ical", "ic"), ("ful", ""), ("ness", ""), ("ative", "")].map fun (w, s) => (w.toList, s.toList)

/-- Step 3, in R1; ative only in R2. -/
def step3 (p1 p2 : Nat) (w : List Char) : List Char :=
  match cut (endings3.map (·.1)) w with
  | none => w
  | some (r, s) =>
    if p1 ≤ r.length ∧ (s = "ative".toList → p2 ≤ r.length) then r ++ (endings3.lookup s).getD [] else w

/-- The endings of step 4. -/
def endings4 : List (List Char) := words ["al", "ance", "ence", "er", "ic", "able", "ible", "ant", "ement", "ment", "ent", "ism",
  "ate", "iti", "ous", "ive", "ize", "ion"]

/-- Step 4: the ending is removed in R2; ion only behind s or t. -/
def step4 (p2 : Nat) (w : List Char) : List Char :=
  match cut endings4 w with
  | none => w
  | some (r, s) =>
    if p2 ≤ r.length ∧ (s = "ion".toList → r.getLast? = some 's' ∨ r.getLast? = some 't') then r else w

/-- Step 5: e is removed in R2, or in R1 if no short syllable is before it; l is removed in R2 behind l. -/
def step5 (p1 p2 : Nat) (w : List Char) : List Char :=
  match cut (words ["e", "l"]) w with
  | none => w
  | some (r, s) =>
    if s = "e".toList then (if p2 ≤ r.length ∨ (p1 ≤ r.length ∧ shortEnd r = false) then r else w)
    else if p2 ≤ r.length ∧ r.getLast? = some 'l' then r
    else w

/-- Words that are left as they are behind step 1a. -/
def invariants : List (List Char) := words ["inning", "outing", "canning", "herring", "earring", "proceed", "exceed", "succeed"]

/-- Back to lower case. -/
def unmark (w : List Char) : List Char := w.map fun c => if c = 'Y' then 'y' else c

/-- The stem of a word. If no `y` was marked, a capital `Y` of the word itself stays. -/
def stem (w : List Char) : List Char :=
  match exceptions.lookup w with
  | some s => s
  | none =>
    if w.length < 3 then w
    else
      let bare := dropQuote w
      let m := markY bare
      let p1 := r1 m
      let p2 := r2 m
      let s := step1a m
      let s := if s ∈ invariants then s else step5 p1 p2 (step4 p2 (step3 p1 p2 (step2 p1 (step1c (step1b p1 s)))))
      if m = bare then s else unmark s

end Verif.Stemming.English
