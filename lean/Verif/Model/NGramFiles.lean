import Verif.Model.CountTrie
import Verif.Model.LMStore
import Verif.Model.Scanner
/- Model of pkg/lm/ngram_writer.go, of the file part of pkg/lm/ngram_reader.go, and of the dictionary reader and the
building of a language model in pkg/lm/binary.go. Files are byte strings. -/
namespace Verif

/-- `fmt.Fprintf(out, "%s\t%d\n", strings.Join(nGrams, " "), count)` — pkg/lm/ngram_writer.go:12, 58-60. -/
def nGramLine (g : List Bytes) (count : Nat) : Bytes := [32].intercalate g ++ 9 :: (decimal count ++ [10])

/-- The callback of `Write`; `outs` are the contents of the files — pkg/lm/ngram_writer.go:51-63. Writing does not fail. -/
def writerPut (outs : List Bytes) (nGrams : List Bytes) (count : Nat) : Except Err (List Bytes) :=
  if nGrams.length = 0 then .ok outs
  else
    match outs[nGrams.length - 1]? with
    | none => .error .panicIndex
    | some out => .ok (outs.set (nGrams.length - 1) (out ++ nGramLine nGrams count))

/-- `googleNGramFormatWriter.Write`: the contents of the files `1-gm`, `2-gm`, … — pkg/lm/ngram_writer.go:38-76. -/
def nGramWrite (order : Nat) (t : CountTrie) (ord : List Bytes → List (Nat × CTNode) → List (Nat × CTNode)) :
    Except Err (List Bytes) := t.walk ord writerPut (List.replicate order [])

/-- `strings.Index(line, "\t")`. -/
def tabIndex (line : Bytes) : Option Nat := line.findIdx? (· == 9)

/-- `strconv.ParseUint(s, 10, 32)`: decimal digits only; `acc` is the value so far. -/
def parseDigits : Bytes → Nat → Except Err Nat
  | [], acc => .ok acc
  | c :: rest, acc =>
    if 48 ≤ c.toNat ∧ c.toNat ≤ 57 then
      if 10 * acc + (c.toNat - 48) < 2 ^ 32 then parseDigits rest (10 * acc + (c.toNat - 48))
      else .error (.other "value out of range")
    else .error (.other "invalid syntax")

/-- `strconv.ParseUint(s, 10, 32)`. (Of an invalid string that also has a too large prefix the code reports one error, the
model the first; both are errors.) -/
def parseUint32 (s : Bytes) : Except Err Nat := if s = [] then .error (.other "invalid syntax") else parseDigits s 0

/-- The inner loop of the reader: the word ids; `get` is `indexer.Get` — pkg/lm/ngram_reader.go:72-80. -/
def mapWords (get : Bytes → Except Err Nat) : List Bytes → Except Err (List Nat)
  | [] => .ok []
  | w :: ws =>
    match get w with
    | .error e => .error e
    | .ok i =>
      match mapWords get ws with
      | .error e => .error e
      | .ok is => .ok (i :: is)

/-- The body of the loop over the lines up to `Put`: the n-gram as word ids and its count —
pkg/lm/ngram_reader.go:68-86. Without a tab `line[:tabIndex]` panics. -/
def parseNGramLine (get : Bytes → Except Err Nat) (line : Bytes) : Except Err (List Nat × Nat) :=
  match tabIndex line with
  | none => .error .panicSlice
  | some i =>
    match mapWords get ((line.take i).splitOn 32) with
    | .error e => .error e
    | .ok ids =>
      match parseUint32 (line.drop (i + 1)) with
      | .error e => .error e
      | .ok count => .ok (ids, count)

/-- The loop over the lines of one file — pkg/lm/ngram_reader.go:67-91. -/
def readNGramLines (get : Bytes → Except Err Nat) (parents : List PackedArray) (tree : List NGramNode) (lines : List Bytes) :
    Except Err (List NGramNode) :=
  foldE (fun tree line =>
    match parseNGramLine get line with
    | .error e => .error e
    | .ok (ids, count) => builderPut parents tree ids count) tree lines

/-- `readNGramVector` — pkg/lm/ngram_reader.go:57-98. `none`: out of fuel. (The lines are scanned first here and handled
afterwards; the handling of a line does not touch the file.) -/
def readNGramVector (get : Bytes → Except Err Nat) (parents : List PackedArray) (fuel : Nat) (r : Reader) :
    Option (Except Err PackedArray) :=
  match (newScanner r).all scanLines fuel with
  | none => none
  | some (lines, e) =>
    some (match readNGramLines get parents [] lines with
      | .error e' => .error e'
      | .ok tree =>
        match e with
        | some e' => .error e'
        | none => .ok (createPackedArray tree))

/-- The loop of `Read` over the files — pkg/lm/ngram_reader.go:43-51. -/
def readNGramVectors (get : Bytes → Except Err Nat) (fuel : Nat) : List PackedArray → List Reader →
    Option (Except Err (List PackedArray))
  | vectors, [] => some (.ok vectors)
  | vectors, r :: rs =>
    match readNGramVector get vectors fuel r with
    | none => none
    | some (.error e) => some (.error e)
    | some (.ok v) => readNGramVectors get fuel (vectors ++ [v]) rs

/-- `Read`; one reader per order — pkg/lm/ngram_reader.go:36-54. -/
def readNGramFiles (get : Bytes → Except Err Nat) (fuel : Nat) (rs : List Reader) : Option (Except Err (List PackedArray)) :=
  if rs.length = 0 then some (.error (.other "nGramOrder should be >= 1")) else readNGramVectors get fuel [] rs

/-! ### The dictionary of a language model — pkg/lm/binary.go:100-209 -/

/-- `<` of Go strings: bytewise, lexicographic. -/
def bytesLt : Bytes → Bytes → Bool
  | [], [] => false
  | [], _ :: _ => true
  | _ :: _, [] => false
  | a :: x, b :: y => decide (a < b) || (decide (a = b) && bytesLt x y)

/-- `dictItem.Less` on (word, count) — pkg/lm/binary.go:141-153. -/
def dictItemLess (n o : Bytes × Nat) : Bool :=
  if n.2 > o.2 then true else if n.2 = o.2 then bytesLt n.1 o.1 else false

/-- `tree.Insert` (third party red-black tree, by its contract): an item that is neither less nor greater than one in the
tree is not added a second time — pkg/lm/binary.go:178. -/
def dictInsert (x : Bytes × Nat) : List (Bytes × Nat) → List (Bytes × Nat)
  | [] => [x]
  | y :: ys => if dictItemLess x y then x :: y :: ys else if dictItemLess y x then y :: dictInsert x ys else y :: ys

/-- The body of the loop over the lines of `1-gm`: the count is parsed first, and without a tab `line[:tabIndex]`
panics — pkg/lm/binary.go:160-179. -/
def dictLine (tree : List (Bytes × Nat)) (line : Bytes) : Except Err (List (Bytes × Nat)) :=
  let i := tabIndex line
  match parseUint32 (line.drop (match i with | some i => i + 1 | none => 0)) with
  | .error e => .error e
  | .ok count =>
    match i with
    | none => .error .panicSlice
    | some i => if i = 0 then .ok tree else .ok (dictInsert (line.take i, count) tree)

/-- `dictionaryReader.Iterate` into a dictionary: the words of the tree in order, keys 0, 1, … —
pkg/lm/binary.go:156-198. The cdb dictionary is taken as the pairs that were put into it. -/
def buildDictionary (fuel : Nat) (r : Reader) : Option (Except Err (List Bytes)) :=
  match (newScanner r).all scanLines fuel with
  | none => none
  | some (lines, e) =>
    some (match foldE dictLine [] lines with
      | .error e' => .error e'
      | .ok tree =>
        match e with
        | some e' => .error e'
        | none => .ok (tree.map Prod.fst))

/-- `StoreBinaryLMFromGoogleFormat`: the dictionary and the contents of the binary file — pkg/lm/binary.go:17-56. `first`
is the file `1-gm` as read for the dictionary, `rs` are the files as read for the counts; `order` is what the sorting in
the building of the hash table returns. `none`: out of fuel. Writing does not fail. -/
def storeBinaryLM (order : Dict → List Nat) (mphFuel fuel : Nat) (first : Reader) (rs : List Reader) :
    Option (Except Err (List Bytes × List UInt8)) :=
  match buildDictionary fuel first with
  | none => none
  | some (.error e) => some (.error e)
  | some (.ok words) =>
    match mphBuild (ramDict words) (order (ramDict words)) mphFuel with
    | none => none
    | some table =>
      match readNGramFiles (indexerGet (ramDict words) table) fuel rs with
      | none => none
      | some (.error e) => some (.error e)
      | some (.ok vs) => some (.ok (words, lmStore vs table))

/-- `RetrieveLMFromBinary` with `NewLanguageModel`: the model and `GetWordID` — pkg/lm/binary.go:59-97,
pkg/lm/language_model.go:29-53, 95-97. The dictionary is the one stored before. -/
def retrieveLM (words : List Bytes) (data : List UInt8) (order : Nat) (start fin : Bytes) :
    Except Err (LangModel × (Bytes → Except Err Nat)) :=
  match lmLoad data with
  | .error e => .error e
  | .ok (vs, table) =>
    match indexerGet (ramDict words) table start with
    | .error e => .error e
    | .ok s =>
      match indexerGet (ramDict words) table fin with
      | .error e => .error e
      | .ok f => .ok (⟨vs, order, s, f⟩, indexerGet (ramDict words) table)

end Verif
