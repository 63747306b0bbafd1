import Verif.Model.IndexerJob
/-
Model of reading a mapped file (pkg/utils/mmap_reader.go) and of walking through a cdb dictionary (pkg/dictionary/cdb_dictionary.go)
down to the bytes of the file. The cdb library (github.com/alldroll/cdb) is taken by this contract: its iterator delivers the records in the
order of the file; the readers of the key and of the value of a record are `io.SectionReader`s over the mapped file. (Model/IndexerJob
allows the library any behaviour on empty values.)
-/
namespace Verif.CDBRead
open Verif

/-- `ErrMMapIsClosed` — pkg/utils/mmap_reader.go:15. -/
def errClosed : Err := .other "MMap file is closed"

/-- `ErrMMapInvalidOffset` — pkg/utils/mmap_reader.go:19. -/
def errOffset : Err := .other "out of range"

/-- `type MMapReader struct` (`none`: closed) — pkg/utils/mmap_reader.go:48-50. -/
structure MMap where
  data : Option Bytes

/-- `Close`: the new state and the error; unmapping does not fail — pkg/utils/mmap_reader.go:53-64. -/
def MMap.close (r : MMap) : MMap × Option Err :=
  match r.data with
  | none => (r, some errClosed)
  | some _ => (⟨none⟩, none)

/-- `ReadAt` into a buffer of `n` bytes: what is copied, and the error — pkg/utils/mmap_reader.go:67-83. -/
def MMap.readAt (r : MMap) (n : Nat) (off : Int) : Bytes × Option Err :=
  match r.data with
  | none => ([], some errClosed)
  | some d =>
    if off < 0 ∨ (d.length : Int) < off then ([], some errOffset)
    else
      let c := (d.drop off.toNat).take n
      if c.length < n then (c, some .eof) else (c, none)

/-- `Bytes` — pkg/utils/mmap_reader.go:86-92. -/
def MMap.bytes (r : MMap) : Except Err Bytes :=
  match r.data with
  | none => .error errClosed
  | some d => .ok d

/-- `io.SectionReader` over the mapped file — Go standard library, io. -/
structure Section where
  base : MMap
  off : Nat
  limit : Nat

/-- `io.NewSectionReader(base, off, n)`. -/
def newSection (base : MMap) (off n : Nat) : Section := ⟨base, off, off + n⟩

/-- `SectionReader.Read` into a buffer of `n` bytes: at the end it returns io.EOF, also for an empty buffer — Go standard library, io. -/
def Section.read (s : Section) (n : Nat) : Bytes × Option Err :=
  if s.limit ≤ s.off then ([], some .eof) else s.base.readAt (min n (s.limit - s.off)) s.off

/-- Where the key and the value of a record are. -/
structure RecPos where
  keyAt : Nat
  keySize : Nat
  valueAt : Nat
  valueSize : Nat

/-- `buf := make([]byte, size); reader.Read(buf)`: the buffer, unless Read reports an error — pkg/dictionary/cdb_dictionary.go:66-76. -/
def readBuf (s : Section) (size : Nat) : Except Err Bytes :=
  match s.read size with
  | (_, some e) => .error e
  | (c, none) => .ok (c ++ List.replicate (size - c.length) 0)

/-- The loop of `Iterate` with the callback `f` (its effects are on `σ`) — pkg/dictionary/cdb_dictionary.go:64-95. Errors of the iterator
itself are not modelled. -/
def iterate {σ : Type} (file : MMap) (f : σ → Nat → Bytes → σ × Option Err) : List RecPos → σ → σ × Option Err
  | [], s => (s, none)
  | p :: ps, s =>
    match readBuf (newSection file p.keyAt p.keySize) p.keySize with
    | .error e => (s, some e)
    | .ok key =>
      match readBuf (newSection file p.valueAt p.valueSize) p.valueSize with
      | .error e => (s, some e)
      | .ok value =>
        if key.length < 4 then (s, some .panicIndex)
        else match f s (leNat key) value with
          | (s', some e) => (s', some e)
          | (s', none) => iterate file f ps s'

end Verif.CDBRead
