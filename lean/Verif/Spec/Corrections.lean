import Verif.Spec.WordSearch
import Verif.Spec.NGramFiles
/-
What a spell checker trained on a corpus should answer, in terms of words. Does not import the model.
-/
namespace Verif.Spec

/-- The number of times the words `g` occur one after the other in the nonempty sentences of the corpus, each put between the
start and the end symbol. -/
def wordCount (start fin : List Char) (corpus : List (List (List Char))) (g : List (List Char)) : Nat :=
  corpusCount (utf8 start) (utf8 fin) (corpus.map fun s => s.map utf8) (g.map utf8)

/-- The words before the last one that a model of order `n` takes into account: the last n - 1 of them; if there are fewer,
all of them after the start symbol. -/
def contextWords (n : Nat) (start : List Char) (seq : List (List Char)) : List (List Char) :=
  if seq.length + 1 < n then start :: seq else seq.drop (seq.length - (n - 1))

/-- Does the word contain all n-grams of the last word of the query (taken as the beginning of a word, and there are any)? -/
def WordConf.completes (c : WordConf) (last w : List Char) : Prop :=
  c.grams (c.prefixText last) ≠ [] ∧ c.matchesPrefix last w = true

/-- `ws` are corrections of the last word of a query, where the words with `known` are those of the dictionary and `freq w`
says how often `w` followed the words before:
* at most K + 1 words, none twice; known words that complete the last word or are similar to it (cosine, with a relative
  error of 2^-48);
* ordered by frequency;
* every completion is listed, unless K words are listed that are all at least as frequent;
* if there are fewer than K completions, every similar word is listed, unless more than K words are listed that are all at
  least as frequent, or there are K known words that are at least as similar. -/
structure Corrections (c : WordConf) (known : List Char → Prop) (freq : List Char → Nat) (last : List Char) (α : ℝ) (K : Nat)
    (ws : List (List Char)) : Prop where
  few : ws.length ≤ K + 1
  nodup : ws.Nodup
  sound : ∀ w ∈ ws, known w ∧ (c.completes last w ∨ α * (1 - 1 / 2 ^ 48) ≤ c.wordSim cosineSim last w)
  sorted : ws.Pairwise fun v w => freq w ≤ freq v
  completions : ∀ w, known w → c.completes last w → w ∈ ws ∨ (K ≤ ws.length ∧ ∀ v ∈ ws, freq w ≤ freq v)
  similar : (∀ vs : List (List Char), vs.Nodup → (∀ v ∈ vs, known v ∧ c.completes last v) → vs.length < K) →
    ∀ w, known w → α * (1 + 1 / 2 ^ 48) ≤ c.wordSim cosineSim last w →
      w ∈ ws ∨ (K < ws.length ∧ ∀ v ∈ ws, freq w ≤ freq v) ∨
        ∃ vs : List (List Char), vs.Nodup ∧ vs.length = K ∧ ∀ v ∈ vs, known v ∧ c.wordSim cosineSim last w ≤ c.wordSim cosineSim last v

/-- `ws` are corrections of a query of one word (`freq w` says how often `w` occurs in the corpus): first the completions `a`,
the most frequent first — the K most frequent ones —, then, if there are fewer than K completions, the similar words
`b`, the most similar first. -/
structure FirstWordCorrections (c : WordConf) (known : List Char → Prop) (freq : List Char → Nat) (last : List Char) (α : ℝ)
    (K : Nat) (ws a b : List (List Char)) : Prop where
  parts : ws = a ++ b
  few : ws.length ≤ K + 1
  nodup : ws.Nodup
  completed : ∀ w ∈ a, known w ∧ c.completes last w
  sorted : a.Pairwise fun v w => freq w ≤ freq v
  completions : ∀ w, known w → c.completes last w → w ∈ a ∨ (a.length = K ∧ ∀ v ∈ a, freq w ≤ freq v)
  resembles : ∀ w ∈ b, known w ∧ α * (1 - 1 / 2 ^ 48) ≤ c.wordSim cosineSim last w
  bySimilarity : b.Pairwise fun v w => c.wordSim cosineSim last w ≤ c.wordSim cosineSim last v
  similar : if a.length = K then b = [] else
    ∀ w, known w → α * (1 + 1 / 2 ^ 48) ≤ c.wordSim cosineSim last w →
      w ∈ ws ∨ (K < ws.length ∧ ∀ v ∈ b, c.wordSim cosineSim last w ≤ c.wordSim cosineSim last v) ∨
        ∃ vs : List (List Char), vs.Nodup ∧ vs.length = K ∧ ∀ v ∈ vs, known v ∧ c.wordSim cosineSim last w ≤ c.wordSim cosineSim last v

end Verif.Spec
