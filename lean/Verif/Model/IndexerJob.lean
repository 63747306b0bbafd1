import Verif.Model.Builder
import Verif.Model.Scanner
/-
Model of the command `suggest indexer` (cmd/suggest/cmd/indexer.go) from the source files to the disc, of the cdb dictionary
(pkg/dictionary/cdb_dictionary.go, helpers.go) and of loading a description (pkg/suggest/service.go:35-72).

The cdb library (github.com/alldroll/cdb) is taken by its contract: a database is the list of the records that were put, in
order; `Get` finds the first record with the key; the iterator delivers the records in order (it may fail at an empty value); a file without
the records of a finished writer (`Close`) is refused. The single writes of the library and failing writes are not modelled.
-/
namespace Verif

/-- `binary.LittleEndian.PutUint32` — pkg/dictionary/helpers.go:79, cdb_dictionary.go:34. -/
def leKey (n : Nat) : Bytes := [UInt8.ofNat n, UInt8.ofNat (n / 2 ^ 8), UInt8.ofNat (n / 2 ^ 16), UInt8.ofNat (n / 2 ^ 24)]

/-- `binary.LittleEndian.Uint32` (it panics on less than 4 bytes; the keys have 4) — pkg/dictionary/cdb_dictionary.go:79. -/
def leNat (b : Bytes) : Nat :=
  (b.getD 0 0).toNat + (b.getD 1 0).toNat * 2 ^ 8 + (b.getD 2 0).toNat * 2 ^ 16 + (b.getD 3 0).toNat * 2 ^ 24

/-- The records of a cdb file. -/
abbrev CDB := List (Bytes × Bytes)

/-- `cdbDictionary.Get` — pkg/dictionary/cdb_dictionary.go:32-46. -/
def CDB.get (c : CDB) (key : Nat) : Bytes :=
  match c.find? fun e => e.1 == leKey key with
  | some e => e.2
  | none => nilValue

/-- What `cdbDictionary.Iterate` passes to its callback — pkg/dictionary/cdb_dictionary.go:54-96. -/
def CDB.pairs (c : CDB) : Dict := c.map fun e => (leNat e.1, e.2)

/-- The records `BuildCDBDictionary` puts for the lines of a source: the number of the line (a uint32 counter) and the line —
pkg/dictionary/helpers.go:76-86, cmd/suggest/cmd/indexer.go:163-175. -/
def cdbRecords (lines : List Bytes) : CDB := lines.zipIdx.map fun li => (leKey (li.2 % 2 ^ 32), li.1)

/-- An index description with what its source path leads to (`none`: the file cannot be opened). `place` stands for the output
path together with the name, which give the paths of all files — pkg/suggest/config.go:25-81. -/
structure IndexDesc where
  disc : Bool
  name : String
  place : String
  source : Option Reader

/-- `indexJob`: its effects on the place of the description, in order, and the error it returns (or panics with) —
cmd/suggest/cmd/indexer.go:97-160, pkg/dictionary/helpers.go:53-95. -/
inductive IndexJob (ρ : Roaring) (G : Gob) (order : Nat → TermMap → TermMap) (splitDocs splitHeader : Bytes → List Bytes)
    (tok : Tokenizer) : IndexDesc → List JobOp → Option Err → Prop
  /-- not a DISC description: skipped (lines 100-103) -/
  | skipped {d : IndexDesc} : d.disc = false → IndexJob ρ G order splitDocs splitHeader tok d [] none
  /-- the source cannot be opened (lines 183-187) -/
  | noSource {d : IndexDesc} (e : Err) : d.disc = true → d.source = none → IndexJob ρ G order splitDocs splitHeader tok d [] (some e)
  /-- the dictionary file is truncated, scanning the source fails (lines 167-175, helpers.go:54-92) -/
  | scanFails {d : IndexDesc} {r : Reader} {lines : List Bytes} {e : Err} : d.disc = true → d.source = some r →
      (newScanner r).Yields scanLines lines (some e) → IndexJob ρ G order splitDocs splitHeader tok d [.truncateDict] (some e)
  /-- the dictionary is written, computing the index fails (lines 125-133) -/
  | indexFails {d : IndexDesc} {r : Reader} {lines : List Bytes} {e : Err} : d.disc = true → d.source = some r →
      (newScanner r).Yields scanLines lines none →
      indexJobOps ρ G order splitDocs splitHeader d.name tok (cdbRecords lines).pairs = .error e →
      IndexJob ρ G order splitDocs splitHeader tok d [.truncateDict, .finishDict (cdbRecords lines).pairs] (some e)
  /-- the dictionary is written, walking through it stops with io.EOF at an empty value: what the cdb library may do, and does if the readers
  of its records are `io.SectionReader`s (Model/CDBRead) -/
  | emptyLine {d : IndexDesc} {r : Reader} {lines : List Bytes} : d.disc = true → d.source = some r →
      (newScanner r).Yields scanLines lines none → [] ∈ lines →
      IndexJob ρ G order splitDocs splitHeader tok d [.truncateDict, .finishDict (cdbRecords lines).pairs] (some .eof)
  | done {d : IndexDesc} {r : Reader} {lines : List Bytes} {ops : List JobOp} : d.disc = true → d.source = some r →
      (newScanner r).Yields scanLines lines none →
      indexJobOps ρ G order splitDocs splitHeader d.name tok (cdbRecords lines).pairs = .ok ops →
      IndexJob ρ G order splitDocs splitHeader tok d ops none

/-- Is the description chosen by the flag `--dict`? — cmd/suggest/cmd/indexer.go:50-52. -/
def chosen (flag : String) (d : IndexDesc) : Bool := flag == "" || flag == d.name

/-- The loop over the descriptions: the effects, with their places, and the error — cmd/suggest/cmd/indexer.go:49-60. -/
inductive IndexerRun (ρ : Roaring) (G : Gob) (order : Nat → TermMap → TermMap) (splitDocs splitHeader : Bytes → List Bytes)
    (tok : IndexDesc → Tokenizer) (flag : String) : List IndexDesc → List (String × JobOp) → Option Err → Prop
  | nil : IndexerRun ρ G order splitDocs splitHeader tok flag [] [] none
  | skip {d : IndexDesc} {ds : List IndexDesc} {ops : List (String × JobOp)} {e : Option Err} : chosen flag d = false →
      IndexerRun ρ G order splitDocs splitHeader tok flag ds ops e → IndexerRun ρ G order splitDocs splitHeader tok flag (d :: ds) ops e
  | fail {d : IndexDesc} {ds : List IndexDesc} {job : List JobOp} {e : Err} : chosen flag d = true →
      IndexJob ρ G order splitDocs splitHeader (tok d) d job (some e) →
      IndexerRun ρ G order splitDocs splitHeader tok flag (d :: ds) (job.map fun o => (d.place, o)) (some e)
  | next {d : IndexDesc} {ds : List IndexDesc} {job : List JobOp} {ops : List (String × JobOp)} {e : Option Err} : chosen flag d = true →
      IndexJob ρ G order splitDocs splitHeader (tok d) d job none →
      IndexerRun ρ G order splitDocs splitHeader tok flag ds ops e →
      IndexerRun ρ G order splitDocs splitHeader tok flag (d :: ds) ((job.map fun o => (d.place, o)) ++ ops) e

/-- The effect of an operation on the disc. -/
def applyAt (w : String → DiscState) (o : String × JobOp) : String → DiscState := fun p => if p = o.1 then applyJob (w p) o.2 else w p

/-- What `AddRunTimeIndex` publishes for the lines of the source: the dictionary is read into RAM (without looking at errors of
the scanner), the index is built in RAM — pkg/suggest/service.go:44-56, ngram_index_builder.go:27-35. -/
inductive LoadRAM (ρ : Roaring) (G : Gob) (order : Nat → TermMap → TermMap) (splitDocs splitHeader : Bytes → List Bytes)
    (tok : Tokenizer) (d : IndexDesc) : Except Err (OpenIndex × Dict) → Prop
  | noSource (e : Err) : d.source = none → LoadRAM ρ G order splitDocs splitHeader tok d (.error e)
  | built {r : Reader} {lines : List Bytes} {e : Option Err} : d.source = some r → (newScanner r).Yields scanLines lines e →
      LoadRAM ρ G order splitDocs splitHeader tok d
        ((buildRAM ρ G order splitDocs splitHeader d.name tok (ramDict lines)).map fun i => (i, ramDict lines))

end Verif
