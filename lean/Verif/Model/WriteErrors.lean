import Verif.Model.Index
import Verif.Model.LMStore
import Verif.Model.NGramFiles
/-
Model of writing files on a device that can fail at any system call: pkg/store/fs_directory.go, byte_output.go with `bufio.Writer`,
and everything that writes through them, with its treatment of errors: pkg/compression (varint.go, skipping.go, bitmap.go),
pkg/index/codec.go, indexer_writer.go, pkg/lm/ngram_writer.go, ngram_model.go, packed_array.go, binary.go, pkg/mph/mph.go. (The other
models have outputs that accept all bytes.)
-/
namespace Verif.Faulty
open Verif

/-- The device: what the `i`-th system call does. `none`: it succeeds. `some (n, e)`: it fails with the error `e`, having written the
first `n` bytes (a failing `open` changes nothing). -/
abbrev Device := Nat → Option (Nat × Err)

/-- An `Output` of a file system directory: a `bufio.Writer` (its buffer and its error) on a file — pkg/store/fs_directory.go:40-52. -/
structure Out where
  name : String
  buf : List UInt8
  err : Option Err

/-- The files, the number of system calls made, the outputs created so far (a handle is a position in this list). -/
structure Disk where
  files : Files
  calls : Nat
  outs : List Out

/-- A program that writes files. -/
def W (α : Type) := Disk → α × Disk

instance : Monad W where
  pure a := fun s => (a, s)
  bind x f := fun s => f (x s).1 (x s).2

/-- What Go functions that write return: a number and an error. -/
abbrev Res := Nat × Option Err

variable (dev : Device)

/-- `os.File.Write`: fewer bytes only with an error. -/
def fileWrite (name : String) (p : List UInt8) : W Res := fun s =>
  match dev s.calls with
  | none => ((p.length, none), { s with files := applyFS s.files (.write name p), calls := s.calls + 1 })
  | some (n, e) => ((min n p.length, some e), { s with files := applyFS s.files (.write name (p.take n)), calls := s.calls + 1 })

/-- `fsDirectory.CreateOutput` — pkg/store/fs_directory.go:40-52. -/
def createOutput (name : String) : W (Except Err Nat) := fun s =>
  match dev s.calls with
  | none => (.ok s.outs.length, { files := applyFS s.files (.create name), calls := s.calls + 1, outs := s.outs ++ [⟨name, [], none⟩] })
  | some (_, e) => (.error e, { s with calls := s.calls + 1 })

/-- The fields of the writer `h`. -/
def getOut (h : Nat) : W Out := fun s => ((s.outs[h]?).getD ⟨"", [], none⟩, s)

/-- Change the fields of the writer `h`. -/
def setOut (h : Nat) (o : Out) : W Unit := fun s => ((), { s with outs := s.outs.set h o })

/-- The size of the buffer: `bufio.NewWriter` — Go standard library, bufio.go. -/
def bufSize : Nat := 4096

/-- `bufio.Writer.Flush` — Go standard library, bufio.go. -/
def flush (h : Nat) : W (Option Err) := do
  let o ← getOut h
  match o.err with
  | some e => return some e
  | none =>
    if o.buf = [] then return none
    else do
      let (n, e) ← fileWrite dev o.name o.buf
      match e with
      | some e => do
        setOut h { o with buf := o.buf.drop n, err := some e }
        return some e
      | none => do
        setOut h { o with buf := [] }
        return none

/-- `bufio.Writer.Write` with an empty buffer and more bytes than fit: written directly. -/
def writeThrough (h : Nat) (o : Out) (p : List UInt8) : W Res := do
  let (n, e) ← fileWrite dev o.name p
  setOut h { o with buf := [], err := e }
  return (n, e)

/-- `bufio.Writer.Write` — Go standard library, bufio.go: `for len(p) > b.Available() && b.err == nil { … }`; the loop makes at most two
rounds: one that fills and flushes the buffer, one that writes directly. -/
def write (h : Nat) (p : List UInt8) : W Res := do
  let o ← getOut h
  match o.err with
  | some e => return (0, some e)
  | none =>
    if p.length ≤ bufSize - o.buf.length then do
      setOut h { o with buf := o.buf ++ p }
      return (p.length, none)
    else if o.buf = [] then writeThrough dev h o p
    else do
      let k := bufSize - o.buf.length
      setOut h { o with buf := o.buf ++ p.take k }
      match ← flush dev h with
      | some e => return (k, some e)
      | none =>
        if (p.drop k).length ≤ bufSize then do
          setOut h { o with buf := p.drop k }
          return (p.length, none)
        else do
          let (n, e) ← writeThrough dev h o (p.drop k)
          return (k + n, e)

/-- `byteOutput.Close`: `Flush`; a `bufio.Writer` is no `io.Closer`, the file stays open — pkg/store/byte_output.go:64-76. -/
def close (h : Nat) : W (Option Err) := flush dev h

/-- A sequence of `Write` calls that stops at the first error (`encoding/gob`, roaring's `WriteTo`, `fmt.Fprintf`). -/
def writeAll (h : Nat) : List (List UInt8) → W Res
  | [] => return (0, none)
  | p :: ps => do
    let (n, e) ← write dev h p
    match e with
    | some e => return (n, some e)
    | none => do
      let (m, e) ← writeAll h ps
      return (n + m, e)

/-! ### pkg/compression, pkg/index/codec.go -/

/-- `varIntEncode`: the end-of-file error is not passed on — pkg/compression/varint.go:36-56. -/
def wVarInt (h : Nat) : List Nat → (prev : Nat) → W Res
  | [], _ => return (0, none)
  | v :: vs, prev => do
    let (n, e) ← write dev h (encVUInt32 (u32sub v prev))
    match e with
    | some e => if e = .eof then return (n, none) else return (n, some e)
    | none => do
      let (m, e) ← wVarInt h vs v
      return (n + m, e)

/-- The loop of `skippingEnc.Encode`; the block is encoded into a `bytes.Buffer` first — pkg/compression/skipping.go:80-112. (`fuel`: see
`Verif.skipEncLoop`.) -/
def wSkipLoop (gap h : Nat) : (fuel : Nat) → List Nat → (prev : Nat) → W Res
  | fuel, list, prev =>
    match list with
    | [] => return (0, none)
    | x :: _ =>
      match fuel with
      | 0 => return (0, some (.other "loop does not end"))
      | fuel + 1 => do
        let j := min gap list.length
        let block := list.take j
        let pos := varIntEncodeTotal block prev + 2
        let hdr := if j = list.length then pos ||| lastBlockFlag else pos
        let (_, e) ← write dev h (encUInt16 (hdr % 2 ^ 16))
        match e with
        | some e => return (0, some e)
        | none => do
          let (_, e) ← write dev h (varIntEncode block prev)
          match e with
          | some e => return (0, some e)
          | none => do
            let (m, e) ← wSkipLoop gap h fuel (list.drop gap) x
            match e with
            | some e => return (0, some e)
            | none => return (pos + m, none)

/-- `encoder.Encode`; `split`: how the roaring library divides its bytes into `Write` calls — pkg/index/codec.go:17-51,
pkg/compression/skipping.go:67-79, bitmap.go:18-29. -/
def wEncode (ρ : Roaring) (split : List UInt8 → List (List UInt8)) (h : Nat) (list : List Nat) : W Res :=
  if list.length ≤ skippingGapSize + 1 then wVarInt dev h list 0
  else if list.length ≤ maxSkippingLen then wSkipLoop dev skippingGapSize h list.length list 0
  else writeAll dev h (split (ρ.writeTo list))

/-! ### pkg/index/indexer_writer.go -/

/-- The loop over the posting lists: the descriptions of the terms and the error — pkg/index/indexer_writer.go:106-134. -/
def wEntries (ρ : Roaring) (split : List UInt8 → List (List UInt8)) (h : Nat) : List (Nat × String × List Nat) → (offset : Nat) →
    W (List TermDesc × Option Err)
  | [], _ => return ([], none)
  | (i, t, pl) :: rest, offset => do
    let (n, e) ← wEncode dev ρ split h pl
    match e with
    | some e => return ([], some e)
    | none => do
      let (ds, e) ← wEntries ρ split h rest (offset + n)
      return (⟨t, u32 i, u32 n, u32 offset, u32 pl.length⟩ :: ds, e)

/-- `writeHeader` — pkg/index/indexer_writer.go:148-167. -/
def wHeader (G : Gob) (split : List UInt8 → List (List UInt8)) (name : String) (hd : Header) : W (Option Err) := do
  match ← createOutput dev name with
  | .error e => return some e
  | .ok h => do
    let (_, e) ← writeAll dev h (split (G.encode hd))
    match e with
    | some e => return some e
    | none => close dev h

/-- `Commit` — pkg/index/indexer_writer.go:89-145. -/
def wCommit (ρ : Roaring) (G : Gob) (split : List UInt8 → List (List UInt8)) (cfg : WriterConfig) (order : Nat → TermMap → TermMap)
    (ix : Indices) : W (Option Err) := do
  match ← createOutput dev cfg.docs with
  | .error e => return some e
  | .ok h => do
    let (ds, e) ← wEntries dev ρ split h (commitOrder order ix) 0
    match e with
    | some e => return some e
    | none => do
      match ← wHeader dev G split cfg.header ⟨indexVersion, u32 ix.length, ds⟩ with
      | some e => return some e
      | none => close dev h

/-! ### pkg/lm, pkg/mph -/

/-- `packedArray.Store`: the header (one `Write` by `fmt.Fprintln`), the containers, the values — pkg/lm/packed_array.go:95-118. -/
def wVector (h : Nat) (v : PackedArray) : W (Option Err) := do
  let (_, e) ← write dev h (decimal (u32 (8 * v.containers.length)) ++ 32 :: (decimal (u32 (8 * v.values.length)) ++ 32 :: (decimal v.total ++ [10])))
  match e with
  | some e => return some e
  | none => do
    let (_, e) ← write dev h (v.containers.flatMap encUInt64)
    match e with
    | some e => return some e
    | none => do
      let (_, e) ← write dev h (v.values.flatMap encUInt64)
      return e

/-- The loop of `nGramModel.Store` — pkg/lm/ngram_model.go:112-119. -/
def wVectors (h : Nat) : List PackedArray → W (Option Err)
  | [] => return none
  | v :: vs => do
    match ← wVector dev h v with
    | some e => return some e
    | none => wVectors h vs

/-- `nGramModel.Store` — pkg/lm/ngram_model.go:101-122. -/
def wModel (h : Nat) (vs : List PackedArray) : W (Option Err) := do
  let (_, e) ← write dev h modelVersion
  match e with
  | some e => return some e
  | none => do
    let (_, e) ← write dev h [UInt8.ofNat vs.length]
    match e with
    | some e => return some e
    | none => wVectors dev h vs

/-- The loops of `mph.Store` — pkg/mph/mph.go:166-173, 182-189. -/
def wUInt32s (h : Nat) : List Nat → W (Option Err)
  | [] => return none
  | v :: vs => do
    let (_, e) ← write dev h (encUInt32 v)
    match e with
    | some e => return some e
    | none => wUInt32s h vs

/-- `mph.Store` — pkg/mph/mph.go:159-192. -/
def wMPH (h : Nat) (m : MPH) : W (Option Err) := do
  let (_, e) ← write dev h (encUInt32 m.values.length)
  match e with
  | some e => return some e
  | none => do
    match ← wUInt32s dev h m.values with
    | some e => return some e
    | none => do
      let (_, e) ← write dev h (encUInt32 m.auxiliary.length)
      match e with
      | some e => return some e
      | none => wUInt32s dev h (m.auxiliary.map fromI32)

/-- The writing part of `StoreBinaryLMFromGoogleFormat` — pkg/lm/binary.go:37-55. -/
def wBinary (name : String) (vs : List PackedArray) (table : MPH) : W (Option Err) := do
  match ← createOutput dev name with
  | .error e => return some e
  | .ok h => do
    match ← wModel dev h vs with
    | some e => return some e
    | none => do
      match ← wMPH dev h table with
      | some e => return some e
      | none => close dev h

/-- Creating the files of the n-grams — pkg/lm/ngram_writer.go:39-49. -/
def wCreateAll (name : Nat → String) : List Nat → W (Except Err (List Nat))
  | [] => return .ok []
  | i :: is => do
    match ← createOutput dev (name i) with
    | .error e => return .error e
    | .ok h => do
      match ← wCreateAll name is with
      | .error e => return .error e
      | .ok hs => return .ok (h :: hs)

/-- The callback of `Write` — pkg/lm/ngram_writer.go:51-63. -/
def wPut (outs : List Nat) (nGrams : List Bytes) (count : Nat) : W (Option Err) :=
  if nGrams.length = 0 then return none
  else
    match outs[nGrams.length - 1]? with
    | none => return some .panicIndex
    | some h => do
      let (_, e) ← write dev h (nGramLine nGrams count)
      return e

/-- One call of the callback: after an error nothing is done any more — pkg/lm/ngram_writer.go:51-67. -/
def wCall (outs : List Nat) (st : Option Err × Disk) (nGrams : List Bytes) (count : Nat) : Option Err × Disk :=
  match st.1 with
  | some e => (some e, st.2)
  | none => wPut dev outs nGrams count st.2

/-- The walk through the trie — pkg/lm/ngram_writer.go:51-67. (An error of the walk itself is impossible for a trie that was built, C42;
the disk of that case is not modelled.) -/
def wWalk (t : CountTrie) (ord : List Bytes → List (Nat × CTNode) → List (Nat × CTNode)) (outs : List Nat) : W (Option Err) := fun s =>
  match t.walk ord (fun st g c => .ok (wCall dev outs st g c)) (none, s) with
  | .error e => (some e, s)
  | .ok st => st

/-- Closing the files — pkg/lm/ngram_writer.go:69-73. -/
def wCloseAll : List Nat → W (Option Err)
  | [] => return none
  | h :: hs => do
    match ← close dev h with
    | some e => return some e
    | none => wCloseAll hs

/-- `googleNGramFormatWriter.Write`; `name i` is `fmt.Sprintf("%d-gm", i+1)` — pkg/lm/ngram_writer.go:38-76. -/
def wNGrams (name : Nat → String) (order : Nat) (t : CountTrie) (ord : List Bytes → List (Nat × CTNode) → List (Nat × CTNode)) :
    W (Option Err) := do
  match ← wCreateAll dev name (List.range order) with
  | .error e => return some e
  | .ok outs => do
    match ← wWalk dev t ord outs with
    | some e => return some e
    | none => wCloseAll dev outs

end Verif.Faulty
