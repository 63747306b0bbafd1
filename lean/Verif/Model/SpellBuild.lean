import Verif.Model.Builder
import Verif.Model.Spellchecker
/-
Model of internal/spellchecker/dep/spellchecker.go.
-/
namespace Verif

/-- The terms a tokenizer gives for a word. A panic of the tokenizer (n-gram sizes other than 1 … 8, C37) is not modelled
here: no terms. -/
def termsOf (tok : Tokenizer) (w : Bytes) : List String :=
  match tok w with
  | .ok q => q.map goString
  | .error _ => []

/-- `lm.NewTokenizer(…).Tokenize`, which never panics (C38) — pkg/lm/tokenizer.go:14-31. -/
def queryWords (lower : Nat → Nat) (a : Alphabet) (query : Bytes) : List Bytes :=
  match lmTokenize lower a query with
  | .ok ws => ws
  | .error _ => []

/-- `BuildSpellChecker`: the language model is retrieved from its binary file `data` and the dictionary `words` (the cdb file,
as in `retrieveLM`), an index of the dictionary is built in RAM; `wordsAlphabet` is `config.GetWordsAlphabet()`, `d` the
index description — internal/spellchecker/dep/spellchecker.go:13-51, pkg/spellchecker/spellchecker.go:24-37,
pkg/suggest/ngram_index_builder.go:65-83. -/
def buildSpellChecker (ρ : Roaring) (G : Gob) (order : Nat → TermMap → TermMap) (splitDocs splitHeader : Bytes → List Bytes)
    (msort : List (PList ρ) → List (PList ρ)) (lower : Nat → Nat) (sort : List Alphabet → List Alphabet)
    (d : TokenConf) (name : String) (wordsAlphabet : Alphabet) (words : List Bytes) (data : Bytes) (lmOrder : Nat) (start fin : Bytes) :
    Except Err SpellChecker :=
  match retrieveLM words data lmOrder start fin with
  | .error e => .error e
  | .ok (model, getWordID) =>
    match buildRAM ρ G order splitDocs splitHeader name (suggestTokenizer lower sort d) (ramDict words) with
    | .error e => .error e
    | .ok oi => .ok
      { ρ := ρ
        sort := msort
        index := oi
        prefixGrams := termsOf (autocompleteTokenizer lower sort d)
        grams := termsOf (suggestTokenizer lower sort d)
        model := model
        wordID := getWordID
        tokenize := queryWords lower wordsAlphabet
        dict := (ramDict words).get }

end Verif
