import Verif.Spec.CountTrie
/- What C43, C44 and C45 refer to: n-gram count files and the stupid back-off of Brants et al. (2007). -/
namespace Verif.Spec

/-- The n-gram `g` has a line in the file of order `g.length` (`files[0]` holds the unigrams). -/
def inFiles (files : List (List (List Nat × Nat))) (g : List Nat) : Prop :=
  ∃ e ∈ files.getD (g.length - 1) [], e.1 = g

/-- The count files of a corpus: order-(k+1) n-grams in the k-th file, words and counts are 32-bit, every n-gram occurs
together with its own prefix, and no file has more than 2^32-3 lines. -/
structure GoodFiles (files : List (List (List Nat × Nat))) : Prop where
  order : ∀ (k : Nat) F, files[k]? = some F → ∀ e ∈ F, e.1.length = k + 1
  words : ∀ F ∈ files, ∀ e ∈ F, ∀ w ∈ e.1, w < 2 ^ 32
  counts : ∀ F ∈ files, ∀ e ∈ F, e.2 < 2 ^ 32
  closed : ∀ (k : Nat) F, files[k + 1]? = some F → ∀ e ∈ F, inFiles files e.1.dropLast
  lines : ∀ F ∈ files, F.length ≤ 2 ^ 32 - 3

/-- The count of the nonempty n-gram `g` (0 if it has no line). -/
def gramCount (files : List (List (List Nat × Nat))) (g : List Nat) : Nat := totalCount (files.getD (g.length - 1) []) g

/-- The number of words of the corpus: the sum of the unigram counts. -/
def corpusSize (files : List (List (List Nat × Nat))) : Nat := ((files.getD 0 []).map Prod.snd).sum

/-- The count of the context `ctx`; the empty context occurs at every word. -/
def contextCount (files : List (List (List Nat × Nat))) (ctx : List Nat) : Nat :=
  if ctx = [] then corpusSize files else gramCount files ctx

/-- Count files in which every line has a positive count and no count (and not the corpus size) exceeds 32 bits. -/
structure CorpusFiles (files : List (List (List Nat × Nat))) : Prop extends GoodFiles files where
  positive : ∀ F ∈ files, ∀ e ∈ F, 0 < e.2
  fits : ∀ g, gramCount files g < 2 ^ 32
  sizeFits : corpusSize files < 2 ^ 32

/-- The last `n` words of a sequence. -/
def lastWords (n : Nat) (s : List Nat) : List Nat := s.drop (s.length - n)

/-- Stupid back-off of the word `w` after the context `ctx`, as the triple (number of back-offs, numerator, denominator):
the relative frequency if `ctx w` was seen, otherwise 0.4 times the score after the context without its first (oldest)
word; `none` if `w` itself was never seen. -/
def stupidBackoff (files : List (List (List Nat × Nat))) (w : Nat) : List Nat → Option (Nat × Nat × Nat)
  | [] => if 0 < gramCount files [w] then some (0, gramCount files [w], corpusSize files) else none
  | c :: ctx =>
    if 0 < gramCount files (c :: ctx ++ [w]) then
      some (0, gramCount files (c :: ctx ++ [w]), contextCount files (c :: ctx))
    else (stupidBackoff files w ctx).map fun r => (r.1 + 1, r.2)

end Verif.Spec
