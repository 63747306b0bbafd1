import Verif.Model.Merger
/- Model of pkg/lm/ngram_vector_builder.go, pkg/lm/packed_array.go (without Store/Load), pkg/lm/ngram_model.go (without
Store/Load), pkg/lm/scorer_next.go, pkg/lm/generator.go and pkg/lm/language_model.go. `uint32` values are natural numbers. -/
namespace Verif

/-- `utils.Pack` — pkg/utils/utils.go:28-30. -/
def pack (a b : Nat) : Nat := ((a <<< 32) ||| (b &&& (2 ^ 32 - 1))) % 2 ^ 64

/-- `utils.UnpackLeft` — pkg/utils/utils.go:33-35. -/
def unpackLeft (v : Nat) : Nat := (v >>> 32) % 2 ^ 32

/-- `utils.UnpackRight` — pkg/utils/utils.go:38-40. -/
def unpackRight (v : Nat) : Nat := v % 2 ^ 32

/-- `maxContextOffset` — pkg/lm/ngram_vector.go:34. -/
def maxContextOffset : Nat := 2 ^ 32 - 2

/-- `InvalidContextOffset` — pkg/lm/ngram_vector.go:32. -/
def invalidContext : Nat := maxContextOffset - 1

/-- `MakeKey`; `log.Fatal` ends the process — pkg/lm/ngram_vector_builder.go:48-54. -/
def makeKey (word context : Nat) : Except Err Nat :=
  if context > maxContextOffset then .error (.other "out of maxContextOffset") else .ok (pack context word)

/-- `type packedArray struct` — pkg/lm/packed_array.go:12-16. -/
structure PackedArray where
  containers : List Nat
  values : List Nat
  total : Nat
  deriving DecidableEq

namespace PackedArray

/-- `findContainerPos`; `none` stands for -1 — pkg/lm/packed_array.go:197-210. The indexes are in range. -/
def findContainerPos (s : PackedArray) (context : Nat) : Option Nat :=
  if s.containers.length = 0 ∨ unpackLeft (s.containers.getD 0 0) > context ∨
      unpackLeft (s.containers.getD (s.containers.length - 1) 0) < context then none
  else
    let target := pack context 0
    let i := sortSearch s.containers.length fun i => decide (s.containers.getD i 0 ≥ target)
    if i ≥ s.containers.length ∨ unpackLeft (s.containers.getD i 0) ≠ context then none else some i

/-- The values of container `i`: `s.values[from:]` or `s.values[from:to]` — pkg/lm/packed_array.go:170-179. -/
def valuesOf (s : PackedArray) (i : Nat) : Except Err (List Nat) :=
  let bgn := unpackRight (s.containers.getD i 0)
  if i = s.containers.length - 1 then
    if bgn ≤ s.values.length then .ok (s.values.drop bgn) else .error .panicSlice
  else
    let fin := unpackRight (s.containers.getD (i + 1) 0)
    if bgn ≤ fin ∧ fin ≤ s.values.length then .ok ((s.values.drop bgn).take (fin - bgn)) else .error .panicSlice

/-- `find` — pkg/lm/packed_array.go:163-193. -/
def find (s : PackedArray) (word context : Nat) : Except Err (Nat × Nat) :=
  match s.findContainerPos context with
  | none => .ok (0, invalidContext)
  | some i =>
    match s.valuesOf i with
    | .error e => .error e
    | .ok values =>
      if values.length = 0 then .error .panicIndex
      else if unpackLeft (values.getD 0 0) > word ∨ unpackLeft (values.getD (values.length - 1) 0) < word then
        .ok (0, invalidContext)
      else
        let target := pack word 0
        let j := sortSearch values.length fun i => decide (values.getD i 0 ≥ target)
        if j ≥ values.length ∨ unpackLeft (values.getD j 0) ≠ word then .ok (0, invalidContext)
        else .ok (values.getD j 0, u32 (unpackRight (s.containers.getD i 0) + j))

/-- `GetCount` — pkg/lm/packed_array.go:52-60. -/
def getCount (s : PackedArray) (word context : Nat) : Except Err (Nat × Nat) :=
  match s.find word context with
  | .error e => .error e
  | .ok (value, i) => if invalidContext = i then .ok (0, invalidContext) else .ok (unpackRight value, i)

/-- `GetContextOffset` — pkg/lm/packed_array.go:63-67. -/
def getContextOffset (s : PackedArray) (word context : Nat) : Except Err Nat :=
  match s.find word context with
  | .error e => .error e
  | .ok (_, i) => .ok i

/-- `SubVector` — pkg/lm/packed_array.go:75-93. -/
def subVector (s : PackedArray) (context : Nat) : Option PackedArray :=
  match s.findContainerPos context with
  | none => none
  | some i =>
    let containers := [s.containers.getD i 0] ++
      (if i < s.containers.length - 1 then [s.containers.getD (i + 1) 0] else [])
    some ⟨containers, s.values, s.total⟩

end PackedArray

/-- One node of the stream: key and count — pkg/lm/ngram_vector_builder.go:34-37. -/
abbrev NGramNode := Nat × Nat

/-- The loop of `CreatePackedArray`; state: the array, `context`, `from` — pkg/lm/packed_array.go:223-236. -/
def createLoop : List NGramNode → PackedArray → Nat → Nat → PackedArray
  | [], pa, _, _ => pa
  | (key, count) :: rest, pa, context, bgn =>
    let curr := unpackLeft key
    let fresh := context ≠ curr ∨ pa.containers.length = 0
    createLoop rest
      ⟨if fresh then pa.containers ++ [pack curr bgn] else pa.containers,
       pa.values ++ [pack (unpackRight key) count], u32 (pa.total + count)⟩
      (if fresh then curr else context) (u32 (bgn + 1))

/-- `CreatePackedArray` — pkg/lm/packed_array.go:213-237. -/
def createPackedArray (nodes : List NGramNode) : PackedArray := createLoop nodes ⟨[], [], 0⟩ invalidContext 0

/-- The red-black tree of the builder (third party, github.com/alldroll/rbtree), by its contract: an ordered map from keys
to counts, listed in order. `Find`, then `Count += count` (uint32) or `Insert` —
pkg/lm/ngram_vector_builder.go:90-99. -/
def treePut (key count : Nat) : List NGramNode → List NGramNode
  | [] => [(key, count)]
  | (k, c) :: rest =>
    if key < k then (key, count) :: (k, c) :: rest
    else if key = k then (k, u32 (c + count)) :: rest
    else (k, c) :: treePut key count rest

/-- The loop of `Put` — pkg/lm/ngram_vector_builder.go:83-103: `parents` are the vectors of the lower orders. -/
def vectorPut (count : Nat) (tree : List NGramNode) : List PackedArray → List Nat → Nat → Except Err (List NGramNode)
  | _, [], _ => .ok tree
  | _, [last], parent =>
    match makeKey last parent with
    | .error e => .error e
    | .ok key => .ok (treePut key count tree)
  | [], _ :: _, _ => .error .panicIndex
  | v :: parents, w :: rest, parent =>
    match v.getContextOffset w parent with
    | .error e => .error e
    | .ok parent' => vectorPut count tree parents rest parent'

/-- `Put` — pkg/lm/ngram_vector_builder.go:76-105. -/
def builderPut (parents : List PackedArray) (tree : List NGramNode) (nGram : List Nat) (count : Nat) :
    Except Err (List NGramNode) :=
  if nGram.length ≠ parents.length + 1 then .error (.other "nGrams order is out of range")
  else vectorPut count tree parents nGram invalidContext

/-- All `Put` calls for one order. -/
def builderPuts (parents : List PackedArray) : List NGramNode → List (List Nat × Nat) → Except Err (List NGramNode)
  | tree, [] => .ok tree
  | tree, (g, c) :: rest =>
    match builderPut parents tree g c with
    | .error e => .error e
    | .ok tree' => builderPuts parents tree' rest

/-- The loop of `Read`: one vector per order, each built on the previous ones — pkg/lm/ngram_reader.go:43-51. The n-grams
of each order, mapped to word ids, are the input. -/
def readVectors : List PackedArray → List (List (List Nat × Nat)) → Except Err (List PackedArray)
  | vectors, [] => .ok vectors
  | vectors, file :: files =>
    match builderPuts vectors [] file with
    | .error e => .error e
    | .ok tree => readVectors (vectors ++ [createPackedArray tree]) files

/-- `googleNGramFormatReader.Read` on word ids — pkg/lm/ngram_reader.go:36-54. -/
def readModel (files : List (List (List Nat × Nat))) : Except Err (List PackedArray) :=
  if files.length = 0 then .error (.other "nGramOrder should be >= 1") else readVectors [] files

/-- What `calcScore` computes: -100 for an unknown phrase, otherwise log(0.4^steps · num / den) (in the code a float64,
+Inf if `den` is 0) — pkg/lm/ngram_model.go:22-27, 163-175. -/
inductive LMScore where
  | unknown
  | ratio (steps num den : Nat)
  deriving DecidableEq, Repr

/-- The loop of `calcScore` at index `i`, `steps` factors of alpha collected — pkg/lm/ngram_model.go:166-172. -/
def calcLoop (counts : List Nat) : Nat → Nat → LMScore
  | 0, _ => .unknown
  | i + 1, steps =>
    if counts.getD (i + 1) 0 > 0 then .ratio steps (counts.getD (i + 1) 0) (counts.getD i 0)
    else calcLoop counts i (steps + 1)

/-- `calcScore` — pkg/lm/ngram_model.go:163-175. -/
def calcScore (counts : List Nat) : LMScore := calcLoop counts (counts.length - 1) 0

/-- The loop of `Score` (and of `Next`): the counts of the prefixes and the final parent; `order` words are looked up —
pkg/lm/ngram_model.go:53-61, 77-86. -/
def prefixCounts : List PackedArray → List Nat → Nat → Except Err (List Nat × Nat)
  | v :: vs, w :: ws, parent =>
    match v.getCount w parent with
    | .error e => .error e
    | .ok (count, parent') =>
      match prefixCounts vs ws parent' with
      | .error e => .error e
      | .ok (counts, p) => .ok (count :: counts, p)
  | _, _, parent => .ok ([], parent)

/-- `Score` — pkg/lm/ngram_model.go:44-64; the order is the number of vectors (at most 255). -/
def modelScore (vs : List PackedArray) (nGrams : List Nat) : Except Err LMScore :=
  match prefixCounts vs nGrams invalidContext with
  | .error e => .error e
  | .ok (counts, _) => .ok (calcScore ((match vs with | v :: _ => if counts = [] then 0 else v.total | [] => 0) :: counts))

/-- `type scorerNext struct` — pkg/lm/scorer_next.go:9-13. -/
structure ScorerNext where
  contextCounts : List Nat
  context : Nat
  vector : PackedArray
  deriving DecidableEq

/-- The loop of `Next`; `none` as soon as a count is 0 — pkg/lm/ngram_model.go:77-86. Returns the counts, the parent and
the vector of the next order. -/
def nextLoop : List PackedArray → List Nat → List Nat → Nat → Except Err (Option (List Nat × Nat × PackedArray))
  | v :: _, [], counts, parent => .ok (some (counts, parent, v))
  | v :: vs, w :: ws, counts, parent =>
    match v.getCount w parent with
    | .error e => .error e
    | .ok (count, parent') => if count = 0 then .ok none else nextLoop vs ws (counts ++ [count]) parent'
  | [], _, _, _ => .error .panicIndex

/-- `Next` — pkg/lm/ngram_model.go:67-99; `none` is a nil scorer. -/
def modelNext (vs : List PackedArray) (nGrams : List Nat) : Except Err (Option ScorerNext) :=
  if vs.length ≤ nGrams.length ∨ nGrams.length = 0 then
    .error (.other "nGrams length should be less than the nGramModel order")
  else
    match nextLoop vs nGrams [] invalidContext with
    | .error e => .error e
    | .ok none => .ok none
    | .ok (some (counts, parent, v)) =>
      match v.subVector parent with
      | none => .ok none
      | some sub => .ok (some ⟨counts, parent, sub⟩)

/-- `ScoreNext` — pkg/lm/scorer_next.go:15-23. -/
def ScorerNext.score (s : ScorerNext) (word : Nat) : Except Err LMScore :=
  match s.vector.getCount word s.context with
  | .error e => .error e
  | .ok (count, _) => if count = 0 then .ok .unknown else .ok (calcScore (s.contextCounts ++ [count]))

/-- `splitIntoNGrams` — pkg/lm/generator.go:9-23. -/
def splitIntoNGrams (sequence : List Nat) (k : Nat) : List (List Nat) :=
  if sequence.length < k then []
  else (List.range (sequence.length - k + 1)).map fun i => (sequence.drop i).take k

/-- The parts of `languageModel` and its config used for scoring — pkg/lm/language_model.go:20-26. -/
structure LangModel where
  vectors : List PackedArray
  order : Nat
  startSymbol : Nat
  endSymbol : Nat

/-- `wrapSentence` — pkg/lm/language_model.go:120-132. -/
def LangModel.wrap (m : LangModel) (s : List Nat) : List Nat := m.startSymbol :: (s ++ [m.endSymbol])

/-- The scores that `ScoreWordIDs` adds up — pkg/lm/language_model.go:84-92. -/
def LangModel.sentenceScores (m : LangModel) (sequence : List Nat) : Except Err (List LMScore) :=
  (splitIntoNGrams (m.wrap sequence) m.order).foldr (fun g acc =>
    match modelScore m.vectors g with
    | .error e => .error e
    | .ok s =>
      match acc with
      | .error e => .error e
      | .ok l => .ok (s :: l)) (.ok [])

/-- The sequence `languageModel.Next` passes to the model — pkg/lm/language_model.go:100-112. (For order 0 the slice
expression panics; the reader refuses order 0.) -/
def LangModel.nextContext (m : LangModel) (sequence : List Nat) : List Nat :=
  if sequence.length + 1 < m.order then m.startSymbol :: sequence
  else if sequence.length > m.order then sequence.drop (sequence.length - m.order + 1)
  else if sequence.length = m.order then sequence.take (m.order - 1)
  else sequence

/-- `languageModel.Next` — pkg/lm/language_model.go:100-112. -/
def LangModel.next (m : LangModel) (sequence : List Nat) : Except Err (Option ScorerNext) :=
  modelNext m.vectors (m.nextContext sequence)

end Verif
