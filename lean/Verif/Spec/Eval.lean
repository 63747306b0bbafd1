import Verif.Model.Eval
import Verif.Spec.WordSearch
/-
What an interactive session should look like, and what white space is. Of the model only the type `Shown` (prompts and
answers) and the type of scores are used.
-/
namespace Verif.Eval
open Verif Spec

/-- White space of Unicode (`White_Space`). -/
def whiteSpace : List Char :=
  ['\t', '\n', '\x0b', '\x0c', '\r', ' ', '\u0085', '\u00a0', '\u1680', '\u2000', '\u2001', '\u2002', '\u2003', '\u2004', '\u2005',
    '\u2006', '\u2007', '\u2008', '\u2009', '\u200a', '\u2028', '\u2029', '\u202f', '\u205f', '\u3000']

/-- A text without the white space at both ends. -/
def strip (cs : List Char) : List Char :=
  ((cs.dropWhile (whiteSpace.contains ·)).reverse.dropWhile (whiteSpace.contains ·)).reverse

/-- What is printed after one line: the answer, if there is one, and the prompt for the next line. -/
def printed {α : Type} : Option α → List (Shown α)
  | none => [.prompt]
  | some a => [.answer a, .prompt]

/-- The reply to one line: none if nothing is asked, otherwise a good answer to what is asked. -/
def Reply {L Q α : Type} (asked : L → Option Q) (Good : Q → α → Prop) (line : L) (r : Option α) : Prop :=
  match asked line with
  | none => r = none
  | some q => ∃ a, r = some a ∧ Good q a

/-- A complete session: a prompt, then for every line, in order, a good answer to what it asks (if it asks anything) and the
next prompt. -/
def Complete {L Q α : Type} (asked : L → Option Q) (Good : Q → α → Prop) (lines : List L) (out : List (Shown α)) : Prop :=
  ∃ rs, List.Forall₂ (Reply asked Good) lines rs ∧ out = .prompt :: rs.flatMap printed

/-- `items` are the best matches of the query among the words (all at positions `ks`; C67): no position twice, at most `K`, by
decreasing similarity, with scores within 2^-50 of the similarity; every word listed has a similarity of at least `α` up to a
relative error of 2^-48; a word whose similarity exceeds `α` by that margin is listed, or `K` words are listed that are all at
least as similar. -/
def BestMatches (c : WordConf) (sim : Nat → Nat → Nat → ℝ) (words : List (List Char)) (α : ℝ) (K : Nat) (query : List Char)
    (items : List (ℚ × Bytes)) : Prop :=
  let simOf := c.wordSim sim query
  ∃ ks : List Nat,
    List.Forall₂ (fun it k => ∃ w, words[k]? = some w ∧ it.2 = utf8 w ∧ |(it.1 : ℝ) - simOf w| ≤ 1 / 2 ^ 50) items ks ∧
    ks.Nodup ∧ ks.length ≤ K ∧
    ks.Pairwise (fun i j => ∀ v w, words[i]? = some v → words[j]? = some w → simOf w ≤ simOf v) ∧
    (∀ k ∈ ks, ∀ w, words[k]? = some w → α * (1 - 1 / 2 ^ 48) ≤ simOf w) ∧
    ∀ (k : Nat) (w : List Char), words[k]? = some w → α * (1 + 1 / 2 ^ 48) ≤ simOf w →
      k ∈ ks ∨ (ks.length = K ∧ ∀ j ∈ ks, ∀ v, words[j]? = some v → simOf w ≤ simOf v)

/-- The score of an n-gram `g` of words the code computes (C44): with the longest prefix that occurs in the corpus, of j words,
it is log(0.4^(n-j) · C(first j words) / C(first j-1 words)); -100 (`unknown`) if no prefix occurs. -/
def PrefixScore {W : Type} (count : List W → Nat) (total : Nat) (g : List W) (s : LMScore) : Prop :=
  (∀ j, 1 ≤ j → j ≤ g.length → 0 < count (g.take j) → (∀ i, j < i → i ≤ g.length → count (g.take i) = 0) →
    s = .ratio (g.length - j) (count (g.take j)) (if j = 1 then total else count (g.take (j - 1)))) ∧
  ((∀ j, 1 ≤ j → j ≤ g.length → count (g.take j) = 0) → s = .unknown)

/-- All groups of `n` consecutive words, from left to right. -/
def wordGroups {W : Type} (n : Nat) (s : List W) : List (List W) := s.tails.filterMap fun t => if n ≤ t.length then some (t.take n) else none

end Verif.Eval
