import Verif.Model.Analysis
import Verif.Model.Autocomplete
import Verif.Model.MPH
import Verif.Model.Service
/-
Model of pkg/suggest/indexer.go, ngram_index_builder.go, ngram_index.go, the paths of config.go, of the two ways
AddIndexByDescription builds an index (service.go:35-72), of `indexJob` of the command line (cmd/suggest/cmd/indexer.go) and of
`Service.Suggest` / `Service.Autocomplete` on such an index (service.go:103-173).

A Go string is a byte string. The tokenizers work on the bytes; the index only compares terms for equality, and its model
uses Lean's `String` for them. `goString` is the (injective) translation.
-/
namespace Verif
open Spec (Candidate)

/-- A Go string as the term type of the index model: one character per byte. -/
def goString (b : Bytes) : String := String.ofList (b.map fun x => Char.ofNat x.toNat)

/-- `dict.Iterate(func(key, value) { return indexWriter.AddDocument(key, tokenizer.Tokenize(value)) })` —
pkg/suggest/indexer.go:30-36, memory_dictionary.go:33-41, cdb_dictionary.go:52-90 (in the order of the pairs; read errors
of cdb are not modelled). -/
def indexDict (tok : Tokenizer) : Dict → Indices → Except Err Indices
  | [], ix => .ok ix
  | (key, value) :: rest, ix =>
    match tok value with
    | .error e => .error e
    | .ok tokens =>
      match addDocument ix key (tokens.map goString) with
      | .error e => .error e
      | .ok ix' => indexDict tok rest ix'

/-- `Index`: what is written to the document list and to the header — pkg/suggest/indexer.go:14-44. -/
def indexData (ρ : Roaring) (order : Nat → TermMap → TermMap) (tok : Tokenizer) (dict : Dict) :
    Except Err (Bytes × Header) :=
  match indexDict tok dict [] with
  | .error e => .error e
  | .ok ix => commitData ρ order ix

/-- `GetWriterConfig` — pkg/suggest/config.go:61-66, 74-81. -/
def writerConfig (name : String) : WriterConfig := ⟨name ++ ".hd", name ++ ".dl"⟩

/-- `GetIndexPath`, `GetSourcePath` — pkg/suggest/config.go:43-58 (`path.IsAbs`: the path begins with '/'). -/
def resolvePath (basePath p : List Char) : List Char := if p.head? = some '/' then p else basePath ++ '/' :: p

/-- `GetDictionaryFile` — pkg/suggest/config.go:38-40. -/
def dictionaryFile (basePath output name : List Char) : List Char :=
  resolvePath basePath output ++ '/' :: name ++ ".cdb".toList

/-- `NewRAMBuilder(dict, description)` followed by the reading part of `Build()`: index the dictionary into a new RAM
directory and open it. `splitDocs` and `splitHeader` say how the encoders cut their output into `Write` calls —
pkg/suggest/ngram_index_builder.go:27-35, 47-63. -/
def buildRAM (ρ : Roaring) (G : Gob) (order : Nat → TermMap → TermMap) (splitDocs splitHeader : Bytes → List Bytes)
    (name : String) (tok : Tokenizer) (dict : Dict) : Except Err OpenIndex :=
  match indexData ρ order tok dict with
  | .error e => .error e
  | .ok (bytes, h) =>
    readIndex G (writerConfig name) (openRAM
      ((commitOpsRAM (writerConfig name) (splitDocs bytes) (splitHeader (G.encode h))).foldl applyRAM fun _ => none))

/-- The index part of `indexJob` (the command `suggest indexer`): the files of the index directory afterwards; `fs` are
the files before — cmd/suggest/cmd/indexer.go:93-133, pkg/suggest/indexer.go:14-44. -/
def indexJobFiles (ρ : Roaring) (G : Gob) (order : Nat → TermMap → TermMap) (splitDocs splitHeader : Bytes → List Bytes)
    (name : String) (tok : Tokenizer) (dict : Dict) (fs : Files) : Except Err Files :=
  match indexData ρ order tok dict with
  | .error e => .error e
  | .ok (bytes, h) =>
    .ok ((commitOpsFS (writerConfig name) (splitDocs bytes) (splitHeader (G.encode h))).foldl applyFS fs)

/-- `NewFSBuilder(description)` followed by the reading part of `Build()` — pkg/suggest/ngram_index_builder.go:38-63. -/
def buildFS (G : Gob) (name : String) (fs : Files) : Except Err OpenIndex := readIndex G (writerConfig name) (openFS fs)

/-- What a DISC description has on disc: the cdb dictionary (`none`: missing or incomplete) and the files of the index. -/
structure DiscState where
  dict : Option Dict
  files : Files

/-- The effects of `indexJob`. -/
inductive JobOp where
  | truncateDict              -- `os.OpenFile(…, O_TRUNC)`
  | finishDict (dict : Dict)  -- `cdbWriter.Close()`
  | index (op : DirOp)        -- an effect of `Commit`

/-- The effect of one operation. -/
def applyJob (s : DiscState) : JobOp → DiscState
  | .truncateDict => { s with dict := none }
  | .finishDict d => { s with dict := some d }
  | .index op => { s with files := applyFS s.files op }

/-- The effects of `indexJob` in order: the dictionary is written in place, then the index; the index is computed from the
dictionary just written. The single writes of the cdb library are not modelled: until `Close` the dictionary is incomplete —
cmd/suggest/cmd/indexer.go:93-154, pkg/dictionary/helpers.go:55-106. -/
def indexJobOps (ρ : Roaring) (G : Gob) (order : Nat → TermMap → TermMap) (splitDocs splitHeader : Bytes → List Bytes)
    (name : String) (tok : Tokenizer) (dict : Dict) : Except Err (List JobOp) :=
  match indexData ρ order tok dict with
  | .error e => .error e
  | .ok (bytes, h) =>
    .ok ([.truncateDict, .finishDict dict] ++
      (commitOpsFS (writerConfig name) (splitDocs bytes) (splitHeader (G.encode h))).map .index)

/-- What `AddOnDiscIndex` publishes: the dictionary is opened, then the index — pkg/suggest/service.go:58-72. -/
def openDisc (G : Gob) (name : String) (s : DiscState) : Except Err (OpenIndex × Dict) :=
  addOutcome (B := Unit)
    (match s.dict with | some d => .ok d | none => .error (.other "failed to create CDB dictionary"))
    (fun _ => .ok ()) (fun _ => buildFS G name s.files)

/-- The end of `Service.Suggest` / `Service.Autocomplete` on an index with its dictionary: every candidate with the value
the dictionary has for it — pkg/suggest/service.go:122-138, 157-173. -/
def answerOf (dict : Dict) (cs : Except Err (List (Candidate ℚ))) : Except Err (List (ℚ × Bytes)) :=
  (serve (some ()) (some dict) (fun _ => cs) fun d c => .ok (d.get c.key)).map fun l => l.map fun cv => (cv.1.score, cv.2)

/-- `Service.Suggest` on the opened index `oi` with the dictionary `dict` returns `r` under some schedule; an error of the
tokenizer is a panic — pkg/suggest/service.go:103-138, ngram_index.go:28-30, suggester.go:46-51. -/
def ServiceSuggest (F : FloatOps ℚ) (M : Metric ℚ) (ρ : Roaring) (sort : List (PList ρ) → List (PList ρ)) (tok : Tokenizer)
    (oi : OpenIndex) (dict : Dict) (query : Bytes) (similarity : ℚ) (topK : Int) (r : Except Err (List (ℚ × Bytes))) : Prop :=
  (∃ e, tok query = .error e ∧ r = .error e) ∨
    ∃ q cs, tok query = .ok q ∧ SuggestReturns (suggestCall F M ρ sort oi (q.map goString) similarity topK) cs ∧
      r = answerOf dict cs

/-- The same with the similarity NaN, when the loop of `Suggest` ends or is not reached (else there is no result). -/
def ServiceSuggestNaN (F : FloatOps ℚ) (metric : FloatOps (WithTop ℚ) → Metric (WithTop ℚ)) (ρ : Roaring)
    (sort : List (PList ρ) → List (PList ρ)) (tok : Tokenizer) (oi : OpenIndex) (dict : Dict) (query : Bytes) (topK : Int)
    (r : Except Err (List (ℚ × Bytes))) : Prop :=
  (∃ e, tok query = .error e ∧ r = .error e) ∨
    ∃ q cs, tok query = .ok q ∧ (q = [] ∨ ¬ (nanCall F metric ρ sort oi (q.map goString) topK).Endless) ∧
      SuggestReturns (nanCall F metric ρ sort oi (q.map goString) topK) (cs.map fun l => l.map Candidate.withNaN) ∧ r = answerOf dict cs

/-- `Service.Autocomplete` on the opened index; the scores in the result are 0 (not the scores of the candidates) —
pkg/suggest/service.go:141-173, ngram_index.go:33-35, autocomplete.go:40-42. -/
def ServiceAutocomplete (ρ : Roaring) (sort : List (PList ρ) → List (PList ρ)) (tok : Tokenizer) (oi : OpenIndex)
    (dict : Dict) (query : Bytes) (limit : Int) (r : Except Err (List (ℚ × Bytes))) : Prop :=
  (∃ e, tok query = .error e ∧ r = .error e) ∨
    ∃ q cs, tok query = .ok q ∧ AutocompleteReturns (autocompleteCall ρ sort oi (q.map goString) limit) cs ∧
      r = (answerOf dict cs).map fun l => l.map fun sv => (0, sv.2)

end Verif
