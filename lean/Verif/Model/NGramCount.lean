import Verif.Model.Scanner
import Verif.Model.CountTrie
import Verif.Model.NGramFiles
import Verif.Model.Analysis
/-
Model of the command `language-model ngram-count` — cmd/language-model/cmd/ngram-count.go: the sentences of the source file are
retrieved, tokenized, counted, and the counts are written to the n-gram files. Opening the files is not modelled.
-/
namespace Verif

/-- The fields of `lm.Config` the command uses — pkg/lm/config.go:13-23. -/
structure LMConf where
  nGramOrder : Nat
  alphabet : List Bytes
  separators : List Bytes
  startSymbol : Bytes
  endSymbol : Bytes

/-- Tokenizing one sentence after the other; a panic of the tokenizer (in the goroutine of `produce`) ends the process —
pkg/lm/sentence_retriever.go:44-50. -/
def tokenizeAll (tok : Tokenizer) : List Bytes → Except Err (List (List Bytes))
  | [] => .ok []
  | t :: ts =>
    match tok t with
    | .error e => .error e
    | .ok ws =>
      match tokenizeAll tok ts with
      | .error e => .error e
      | .ok wss => .ok (ws :: wss)

/-- What `Retrieve` returns, call after call, until nil. The tokenizer never returns nil (pkg/analysis/word_tokenizer.go:23), the
error of the scanner is not looked at — pkg/lm/sentence_retriever.go:23-50, cmd/language-model/cmd/ngram-count.go:48-52. The
`bufio.Reader` around the file only changes the chunks, which are arbitrary in `Reader`. -/
def retrieveAll (lower : Nat → Nat) (sort : List Alphabet → List Alphabet) (c : LMConf) (fuel : Nat) (r : Reader) :
    Option (Except Err (List (List Bytes))) :=
  ((newScanner r).all (scanSentence (Alphabet.create sort c.separators).has) fuel).map fun x =>
    tokenizeAll (lmTokenize lower (Alphabet.create sort c.alphabet)) x.1

/-- The command may write these files: `buildNGramsCount`, `storeNGramsCount` — cmd/language-model/cmd/ngram-count.go:39-79. The
retriever is run to its end before counting begins (it shares nothing with the counting but the channel); `order` is the
iteration order of the maps. -/
def NGramCount (lower : Nat → Nat) (sort : List Alphabet → List Alphabet) (c : LMConf) (r : Reader) (outs : List Bytes) : Prop :=
  ∃ fuel source, retrieveAll lower sort c fuel r = some (.ok source) ∧
    ∃ st, BuildReachable c.startSymbol c.endSymbol c.nGramOrder source st ∧ st.returned = true ∧
      ∃ order : List Bytes → List (Nat × CTNode) → List (Nat × CTNode), (∀ p l, (order p l).Perm l) ∧
        nGramWrite c.nGramOrder st.trie order = .ok outs

end Verif
