import Verif.Model.Alphabet
/- Model of pkg/analysis (n-gram, word, filter, wrap tokenizers, normalizer), of pkg/lm/tokenizer.go and of
pkg/suggest/tokenizer.go. A tokenizer is a function from strings to token lists that may panic. -/
namespace Verif

/-- `Tokenizer.Tokenize` — pkg/analysis/tokenizer.go:8-11. -/
abbrev Tokenizer := Bytes → Except Err (List Bytes)

/-- `appendUnique` — pkg/analysis/ngram_tokenizer.go:46-54. -/
def appendUnique (a : List Bytes) (x : Bytes) : List Bytes := if x ∈ a then a else a ++ [x]

/-- `maxN` — pkg/analysis/ngram_tokenizer.go:3. -/
def maxN : Nat := 8

/-- `a[i]` on the array `prevIndexes`. -/
def arrGet (a : List Nat) (i : Nat) : Except Err Nat :=
  match a[i]? with
  | some x => .ok x
  | none => .error .panicIndex

/-- `a[i] = x` on the array `prevIndexes`. -/
def arrSet (a : List Nat) (i x : Nat) : Except Err (List Nat) :=
  if i < a.length then .ok (a.set i x) else .error .panicIndex

/-- The body of the loop up to the store: the token that is appended when `i > n` —
pkg/analysis/ngram_tokenizer.go:29-33. -/
def nGramEmit (n : Nat) (text : Bytes) (prev : List Nat) (i index : Nat) (result : List Bytes) :
    Except Err (List Bytes) :=
  if i > n then
    match arrGet prev ((i - n) % n) with
    | .error e => .error e
    | .ok top =>
      match sliceText text top index with
      | .error e => .error e
      | .ok nGram => .ok (appendUnique result nGram)
  else .ok result

/-- The loop `for index := range text` — pkg/analysis/ngram_tokenizer.go:26-36; `i` is the value before `i++`. -/
def nGramLoop (n : Nat) (text : Bytes) : List (Nat × Nat) → Nat → List Nat → List Bytes →
    Except Err (Nat × List Nat × List Bytes)
  | [], i, prev, result => .ok (i, prev, result)
  | (index, _) :: rest, i, prev, result =>
    match nGramEmit n text prev (i + 1) index result with
    | .error e => .error e
    | .ok result' =>
      match arrSet prev ((i + 1) % n) index with
      | .error e => .error e
      | .ok prev' => nGramLoop n text rest (i + 1) prev' result'

/-- `nGramTokenizer.Tokenize` — pkg/analysis/ngram_tokenizer.go:17-43; `n` is not negative; for `n = 0` the first
`%` panics. -/
def nGramTokenize (n : Nat) : Tokenizer := fun text =>
  if text.length < n then .ok []
  else if n = 0 then .error .panicDivide
  else
    match nGramLoop n text (rangeText 0 text) 0 (List.replicate maxN 0) [] with
    | .error e => .error e
    | .ok (i, prev, result) =>
      match arrGet prev ((i + 1) % n) with
      | .error e => .error e
      | .ok top =>
        match sliceText text top text.length with
        | .error e => .error e
        | .ok nGram => .ok (appendUnique result nGram)

/-- `words = append(words, text[wordStart:wordStart+wordLen])` if a word is open —
pkg/analysis/word_tokenizer.go:34-36, 42-44; `none` stands for `wordStart == -1`. -/
def wordFlush (text : Bytes) (start : Option Nat) (len : Nat) (words : List Bytes) : Except Err (List Bytes) :=
  match start with
  | none => .ok words
  | some s =>
    match sliceText text s (s + len) with
    | .error e => .error e
    | .ok w => .ok (words ++ [w])

/-- The loop — pkg/analysis/word_tokenizer.go:26-44. -/
def wordLoop (has : Nat → Bool) (text : Bytes) : List (Nat × Nat) → Option Nat → Nat → List Bytes →
    Except Err (List Bytes)
  | [], start, len, words => wordFlush text start len words
  | (i, char) :: rest, start, len, words =>
    if has char then wordLoop has text rest (some (start.getD i)) (len + runeLen char) words
    else
      match wordFlush text start len words with
      | .error e => .error e
      | .ok words' => wordLoop has text rest none 0 words'

/-- `wordTokenizer.Tokenize` — pkg/analysis/word_tokenizer.go:22-47. -/
def wordTokenize (a : Alphabet) : Tokenizer := fun text => wordLoop a.has text (rangeText 0 text) none 0 []

/-- `normalizeFilter.Filter`, one token — pkg/analysis/normalizer.go:25-33. -/
def normalizeToken (a : Alphabet) (pad : Bytes) (token : Bytes) : Bytes :=
  (runesOf token).flatMap fun r => if a.has r then encodeRune r else pad

/-- `normalizeFilter.Filter` — pkg/analysis/normalizer.go:21-37. -/
def normalizeFilter (a : Alphabet) (pad : Bytes) (tokens : List Bytes) : List Bytes :=
  tokens.map (normalizeToken a pad)

/-- `filterTokenizer.Tokenize` — pkg/analysis/filter_tokenizer.go:20-27. -/
def filterTokenize (lower : Nat → Nat) (tok : Tokenizer) (filter : List Bytes → List Bytes) : Tokenizer := fun text =>
  (tok (trimSpaces (toLowerText lower text))).map filter

/-- `wrapTokenizer.Tokenize` — pkg/analysis/wrap_tokenizer.go:18-20. -/
def wrapTokenize (tok : Tokenizer) (start fin : Bytes) : Tokenizer := fun text => tok (start ++ text ++ fin)

/-- `lm.tokenizer.Tokenize` — pkg/lm/tokenizer.go:26-31. -/
def lmTokenize (lower : Nat → Nat) (a : Alphabet) : Tokenizer := fun text =>
  wordTokenize a (trimSpaces (toLowerText lower text))

/-- The fields of `IndexDescription` the tokenizers use — pkg/suggest/config.go:25-35. -/
structure TokenConf where
  nGramSize : Nat
  alphabet : List Bytes
  pad : Bytes
  wrapStart : Bytes
  wrapEnd : Bytes

/-- `NewSuggestTokenizer` — pkg/suggest/tokenizer.go:9-20. -/
def suggestTokenizer (lower : Nat → Nat) (sort : List Alphabet → List Alphabet) (d : TokenConf) : Tokenizer :=
  wrapTokenize
    (filterTokenize lower (nGramTokenize d.nGramSize) (normalizeFilter (Alphabet.create sort d.alphabet) d.pad))
    d.wrapStart d.wrapEnd

/-- `NewAutocompleteTokenizer` — pkg/suggest/tokenizer.go:23-34. -/
def autocompleteTokenizer (lower : Nat → Nat) (sort : List Alphabet → List Alphabet) (d : TokenConf) : Tokenizer :=
  wrapTokenize
    (filterTokenize lower (nGramTokenize d.nGramSize) (normalizeFilter (Alphabet.create sort d.alphabet) d.pad))
    d.wrapStart []

end Verif
