import Verif.Model.PostingList
import Verif.Model.Merger
/-
Model of pkg/index: indexer_writer.go, index_reader.go, indices.go, inverted_index.go, searcher.go and of
pkg/store: fs_directory.go, ram_directory.go, bufio.Writer (Go standard library).

External parts are parameters: the bitmap library (`Roaring`), `encoding/gob` (`Gob`), the iteration order of Go
maps (`order`), the splitting of the encoders' output into `Write` calls (`split`). I/O errors other than a crash,
and concurrent readers of a directory that is being written, are not modelled.
-/
namespace Verif
open Spec (CollectRes)

/-! ### Writer -/

/-- `Index = map[Term][]Position` — pkg/index/inverted_index.go:16: an association list with distinct keys; the
order of its entries is irrelevant, `Commit` iterates in an arbitrary order. -/
abbrev TermMap := List (String × List Nat)

/-- `index[term] = append(index[term], id)` — pkg/index/indexer_writer.go:82. -/
def TermMap.push : TermMap → String → Nat → TermMap
  | [], t, id => [(t, [id])]
  | (t', l) :: rest, t, id => if t' = t then (t', l ++ [id]) :: rest else (t', l) :: TermMap.push rest t id

/-- `Indices = []Index` (an entry may be nil) — pkg/index/indices.go:4. -/
abbrev Indices := List (Option TermMap)

/-- First part of `AddDocument`: grow the slice. `make(Indices, c+1, 2*c)` panics if the length exceeds the
capacity — pkg/index/indexer_writer.go:67-73. -/
def growIndices (indices : Indices) (c : Nat) : Except Err Indices :=
  if indices.length ≤ c then
    if c * 2 < c + 1 then .error .panicMake
    else .ok (indices ++ List.replicate (c + 1 - indices.length) none)
  else .ok indices

/-- `AddDocument` — pkg/index/indexer_writer.go:66-86. -/
def addDocument (indices : Indices) (id : Nat) (terms : List String) : Except Err Indices := do
  let grown ← growIndices indices terms.length
  match grown[terms.length]? with
  | none => .error .panicIndex
  | some m => .ok (grown.set terms.length (some (terms.foldl (fun m t => m.push t id) (m.getD []))))

/-- A history of `AddDocument` calls on a new writer — pkg/index/indexer_writer.go:31-42, 66-86. -/
def addDocuments : List (Nat × List String) → Indices → Except Err Indices
  | [], ix => .ok ix
  | (id, terms) :: ds, ix => do addDocuments ds (← addDocument ix id terms)

/-- `termDescription` — pkg/index/indexer_writer.go:57-63. -/
structure TermDesc where
  term : String
  indice : Nat
  bytesSize : Nat
  position : Nat
  listLen : Nat
  deriving DecidableEq, Repr

/-- `header` — pkg/index/indexer_writer.go:50-54. -/
structure Header where
  version : String
  indices : Nat
  terms : List TermDesc
  deriving DecidableEq, Repr

/-- `IndexVersion` — pkg/index/indexer_writer.go:13. -/
def indexVersion : String := "v5.1"

/-- The entries in the order in which `Commit` visits them; `order i m` is the iteration order of the map of
cardinality `i` — pkg/index/indexer_writer.go:106-111. -/
def commitOrder (order : Nat → TermMap → TermMap) (ix : Indices) : List (Nat × String × List Nat) :=
  ix.zipIdx.flatMap fun p => (order p.2 (p.1.getD [])).map fun e => (p.2, e)

/-- The loop of `Commit`: bytes of the document list and the term descriptions; `offset` = `mapValueOffset` —
pkg/index/indexer_writer.go:106-134. -/
def commitEntries (ρ : Roaring) : List (Nat × String × List Nat) → (offset : Nat) →
    Except Err (List UInt8 × List TermDesc)
  | [], _ => .ok ([], [])
  | (i, t, pl) :: rest, offset => do
    let (bytes, n) ← codecEncode ρ pl
    let (bytes', ds) ← commitEntries ρ rest (offset + n)
    return (bytes ++ bytes', ⟨t, u32 i, u32 n, u32 offset, u32 pl.length⟩ :: ds)

/-- Bytes of the document list file and the header that `Commit` produces —
pkg/index/indexer_writer.go:89-145. -/
def commitData (ρ : Roaring) (order : Nat → TermMap → TermMap) (ix : Indices) :
    Except Err (List UInt8 × Header) := do
  let (bytes, ds) ← commitEntries ρ (commitOrder order ix) 0
  return (bytes, ⟨indexVersion, u32 ix.length, ds⟩)

/-! ### encoding/gob -/

/-- `gob.NewEncoder(w).Encode(header)` and `gob.NewDecoder(r).Decode(header)`. -/
structure Gob where
  encode : Header → List UInt8
  decode : List UInt8 → Except Err Header

/-- Contract assumed of encoding/gob: the first value of a stream is decoded, and a truncated value is an error. -/
structure Gob.Lawful (G : Gob) : Prop where
  roundtrip : ∀ h rest, G.decode (G.encode h ++ rest) = .ok h
  truncated : ∀ h p q, G.encode h = p ++ q → q ≠ [] → ∃ e, G.decode p = .error e

/-! ### Directories -/

/-- Files of a directory: name → content. -/
abbrev Files := String → Option (List UInt8)

/-- Effects on a directory: `CreateOutput(name)`, and bytes arriving in the file / buffer. -/
inductive DirOp where
  | create (name : String)
  | write (name : String) (bytes : List UInt8)

/-- Replace one file. -/
def Files.update (fs : Files) (name : String) (content : List UInt8) : Files :=
  fun n => if n = name then some content else fs n

/-- Effect on a file system directory: `O_CREATE|O_TRUNC`, append — pkg/store/fs_directory.go:40-52. -/
def applyFS (fs : Files) : DirOp → Files
  | .create name => fs.update name []
  | .write name b => fs.update name ((fs name).getD [] ++ b)

/-- Effect on a RAM directory: an existing buffer is kept — pkg/store/ram_directory.go:22-28. -/
def applyRAM (fs : Files) : DirOp → Files
  | .create name => match fs name with
    | some _ => fs
    | none => fs.update name []
  | .write name b => fs.update name ((fs name).getD [] ++ b)

/-- `fsDirectory.OpenInput`; mapping an empty file fails (mmap with length 0 is EINVAL) —
pkg/store/fs_directory.go:55-75, pkg/utils/mmap_reader.go:23-45. -/
def openFS (fs : Files) (name : String) : Except Err BytesInput :=
  match fs name with
  | none => .error (.other "no such file")
  | some [] => .error (.other "mmap: invalid argument")
  | some b => .ok ⟨b, 0⟩

/-- `ramDirectory.OpenInput` — pkg/store/ram_directory.go:31-39. -/
def openRAM (fs : Files) (name : String) : Except Err BytesInput :=
  match fs name with
  | none => .error (.other "there is no such input")
  | some b => .ok ⟨b, 0⟩

/-- `bufio.Writer.Write(p)` with a buffer of `size` bytes: chunks passed on and the new buffer (Go standard library,
bufio.go: `for len(p) > b.Available() { if b.Buffered() == 0 { write p directly } else { fill; Flush } }`). -/
def bufWrite (size : Nat) (buf p : List UInt8) : List (List UInt8) × List UInt8 :=
  if p.length ≤ size - buf.length then ([], buf ++ p)
  else if buf = [] then ([p], [])
  else
    let n := size - buf.length
    let chunk := buf ++ p.take n
    let p := p.drop n
    if p.length ≤ size then ([chunk], p) else ([chunk, p], [])

/-- A sequence of writes: all chunks passed on, and the final buffer. -/
def bufWrites (size : Nat) : List (List UInt8) → (buf : List UInt8) → List (List UInt8) × List UInt8
  | [], buf => ([], buf)
  | p :: ps, buf =>
    let (cs, buf) := bufWrite size buf p
    let (cs', buf) := bufWrites size ps buf
    (cs ++ cs', buf)

/-- `Flush`: pass on what is buffered. -/
def bufFlush (buf : List UInt8) : List (List UInt8) := if buf = [] then [] else [buf]

/-- `WriterConfig` — pkg/index/indexer_writer.go:25-28. -/
structure WriterConfig where
  header : String
  docs : String

/-- The effects of `Commit` on a file system directory, in order: the document list is created and written through a
4096 byte buffer; then the header is created, written, flushed (`Close`); only then the rest of the document list is flushed —
pkg/index/indexer_writer.go:89-167, pkg/store/byte_output.go:64-76. -/
def commitOpsFS (cfg : WriterConfig) (docWrites headerWrites : List (List UInt8)) : List DirOp :=
  let d := bufWrites 4096 docWrites []
  let h := bufWrites 4096 headerWrites []
  .create cfg.docs :: d.1.map (.write cfg.docs) ++
    (.create cfg.header :: (h.1 ++ bufFlush h.2).map (.write cfg.header)) ++
    (bufFlush d.2).map (.write cfg.docs)

/-- The effects of `Commit` on a RAM directory (no buffering) — pkg/index/indexer_writer.go:89-167. -/
def commitOpsRAM (cfg : WriterConfig) (docWrites headerWrites : List (List UInt8)) : List DirOp :=
  .create cfg.docs :: docWrites.map (.write cfg.docs) ++
    (.create cfg.header :: headerWrites.map (.write cfg.header))

/-- The process dies during the effects `ops`: a prefix of them has happened, the last write possibly only in
part. -/
inductive Crash : List DirOp → List DirOp → Prop where
  | now (ops) : Crash ops []
  | torn (name) (bytes part : List UInt8) (ops) : part <+: bytes → Crash (.write name bytes :: ops) [.write name part]
  | later {op ops ops'} : Crash ops ops' → Crash (op :: ops) (op :: ops')

/-! ### Reader -/

/-- Entry of `invertedIndexStructure` — pkg/index/inverted_index.go:30-37. -/
structure Entry where
  size : Nat
  position : Nat
  length : Nat
  deriving DecidableEq, Repr

/-- `invertedIndexStructure` (a map). -/
abbrev Table := String → Option Entry

/-- `InvertedIndexIndices` as read: the document list input and one optional table per cardinality —
pkg/index/indices.go:17-38, pkg/index/inverted_index.go:40-54. -/
structure OpenIndex where
  docs : BytesInput
  tables : List (Option Table)

/-- The loop over the term descriptions — pkg/index/index_reader.go:88-108. -/
def buildTables : List TermDesc → List (Option Table) → Except Err (List (Option Table))
  | [], ts => .ok ts
  | d :: ds, ts =>
    match ts[d.indice]? with
    | none => .error .panicIndex
    | some t =>
      if d.bytesSize = 0 then buildTables ds (ts.set d.indice none)
      else
        let old : Table := t.getD (fun _ => none)
        buildTables ds (ts.set d.indice (some fun x =>
          if x = d.term then some ⟨d.bytesSize, d.position, d.listLen⟩ else old x))

/-- `Reader.Read` — pkg/index/index_reader.go:29-120. `opn` is `OpenInput` of the directory. -/
def readIndex (G : Gob) (cfg : WriterConfig) (opn : String → Except Err BytesInput) : Except Err OpenIndex := do
  let hin ← opn cfg.header
  let h ← G.decode hin.buf
  if h.version ≠ indexVersion then .error (.other "index version mismatch")
  else do
    let docs ← opn cfg.docs
    let tables ← buildTables h.terms (List.replicate h.indices none)
    return ⟨docs, tables⟩

/-- `InvertedIndexIndices.Get(i)` — pkg/index/indices.go:27-33. -/
def OpenIndex.table (ix : OpenIndex) (i : Nat) : Option Table := (ix.tables[i]?).getD none

/-- `InvertedIndexIndices.Size()` — pkg/index/indices.go:36-38. -/
def OpenIndex.size (ix : OpenIndex) : Nat := ix.tables.length

/-- `invertedIndex.Has(term)` — pkg/index/inverted_index.go:77-80. -/
def Table.has (t : Table) (term : String) : Bool := (t term).isSome

/-- `invertedIndex.Get(term)`; `none` is the empty context — pkg/index/inverted_index.go:57-74. -/
def Table.get (docs : BytesInput) (t : Table) (term : String) : Except Err (Option PLContext) :=
  match t term with
  | none => .ok none
  | some e => do
    let r ← docs.slice e.position e.size
    return some ⟨e.length, r⟩

/-! ### Searcher -/

/-- `filterTermsByExistence`; `acc` = `filtered`, the list is `terms[i:]` — pkg/index/searcher.go:67-78. -/
def filterTerms (t : Table) (threshold : Int) : List String → (acc : List String) → List String
  | [], acc => acc
  | x :: xs, acc =>
    if ((acc.length + (xs.length + 1) : Nat) : Int) ≥ threshold then
      filterTerms t threshold xs (if t.has x then acc ++ [x] else acc)
    else acc

/-- Open the posting lists of the terms; `stale` gives the state of the pooled objects —
pkg/index/searcher.go:38-58. A nil reader (term not in the index) would panic. -/
def openAll (ρ : Roaring) (docs : BytesInput) (t : Table) (stale : Nat → SkipList) :
    List String → Except Err (List (PList ρ))
  | [] => .ok []
  | x :: xs => do
    match ← t.get docs x with
    | none => .error .panicIndex
    | some ctx =>
      let l ← openPList ρ (stale xs.length) ctx
      let ls ← openAll ρ docs t stale xs
      return l :: ls

/-- `searcher.Search` on the inverted index `t`; `merge` is the merger with the collector —
pkg/index/searcher.go:28-65. -/
def search {κ : Type} (ρ : Roaring) (merge : List (PList ρ) → Int → κ → κ × Option Err) (docs : BytesInput)
    (stale : Nat → SkipList) (t : Table) (terms : List String) (threshold : Int) (k : κ) : κ × Option Err :=
  let terms := filterTerms t threshold terms []
  if (terms.length : Int) < threshold then (k, none)
  else
    match openAll ρ docs t stale terms with
    | .error e => (k, some e)
    | .ok rid => merge rid threshold k

end Verif
