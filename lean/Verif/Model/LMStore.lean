import Verif.Model.MPH
import Verif.Model.NGramVector
/- Model of storing and loading n-gram models: pkg/lm/packed_array.go:95-160, pkg/lm/ngram_model.go:124-160,
pkg/lm/serialization_generic.go, pkg/lm/serialization_unsafe.go, and the binary file of pkg/lm/binary.go. -/
namespace Verif

/-- A number in decimal, as `fmt` prints it. -/
def decimal (n : Nat) : List UInt8 :=
  if h : n < 10 then [UInt8.ofNat (48 + n)] else decimal (n / 10) ++ [UInt8.ofNat (48 + n % 10)]
termination_by n
decreasing_by omega

/-- A `uint64` in little endian: `binary.LittleEndian.PutUint64`, and the memory layout on 386/amd64 —
pkg/lm/serialization_generic.go:9-17, pkg/lm/serialization_unsafe.go:13-23. -/
def encUInt64 (v : Nat) : List UInt8 := encUInt32 (v % 2 ^ 32) ++ encUInt32 (v / 2 ^ 32)

/-- Eight bytes as a little endian `uint64`. -/
def decUInt64 (b : List UInt8) : Nat := b.foldr (fun c acc => c.toNat + 256 * acc) 0

/-- The loop of `byteSliceAsUint64Slice` for `n` numbers — pkg/lm/serialization_generic.go:24-30 (and
serialization_unsafe.go:25-40, which reinterprets the bytes in place). -/
def decUInt64s : Nat → List UInt8 → List Nat
  | 0, _ => []
  | n + 1, b => decUInt64 (b.take 8) :: decUInt64s n (b.drop 8)

/-- `byteSliceAsUint64Slice` — pkg/lm/serialization_generic.go:19-31, serialization_unsafe.go:27-30. Another size is a
`panic("Slice size should be divisible by 8")`; which panic it is does not matter, so `panicSlice` stands for it. -/
def byteSliceAsUint64Slice (b : List UInt8) : Except Err (List Nat) :=
  if b.length % 8 ≠ 0 then .error .panicSlice else .ok (decUInt64s (b.length / 8) b)

/-- `packedArray.Store` — pkg/lm/packed_array.go:95-118. The header is `fmt.Fprintln(containerSize, valuesSize, total)`. -/
def PackedArray.store (s : PackedArray) : List UInt8 :=
  decimal (u32 (8 * s.containers.length)) ++ 32 :: (decimal (u32 (8 * s.values.length)) ++ 32 :: (decimal s.total ++ 10 ::
    (s.containers.flatMap encUInt64 ++ s.values.flatMap encUInt64)))

/-- `fmt.Fscanln` reading one `uint32` that is followed by the byte `stop`. Of its syntax only what `Store` writes is
modelled: decimal digits up to `stop`; anything else is an error here (fmt also accepts signs, prefixes, underscores and
further spaces). `acc` is the value so far. For the last number of the line (`stop` = newline) the end of the input is as
good as a newline: `Fscanln` accepts "a newline or EOF" after the final item. -/
def scanUint32 (stop : UInt8) : List UInt8 → Nat → Bool → Except Err (Nat × Nat)
  | [], acc, any => if stop = 10 ∧ any = true then .ok (acc, 0) else .error .unexpectedEOF
  | c :: rest, acc, any =>
    if c = stop then if any then .ok (acc, 1) else .error (.other "expected integer")
    else if 48 ≤ c.toNat ∧ c.toNat ≤ 57 then
      let acc := 10 * acc + (c.toNat - 48)
      if acc < 2 ^ 32 then
        match scanUint32 stop rest acc true with
        | .error e => .error e
        | .ok (v, n) => .ok (v, n + 1)
      else .error (.other "unsigned integer overflow")
    else .error (.other "expected integer")

/-- Reads one number of the header and moves the position behind its stop byte. -/
def readNumber (stop : UInt8) (r : BytesInput) : Except Err Nat × BytesInput :=
  match scanUint32 stop (r.buf.drop r.i) 0 false with
  | .error e => (.error e, r)
  | .ok (v, n) => (.ok v, { r with i := r.i + n })

/-- `packedArray.Load` — pkg/lm/packed_array.go:120-160: both directories give inputs with `Data()`
(pkg/store/byte_input.go:54-56), so the slice branch (lines 137-146) is the one that runs. `Data()[p : p+n]` is checked against the capacity of the slice;
the capacity is taken to be the length, as it is for a mapped file. -/
def packedArrayLoad (r : BytesInput) : Except Err PackedArray × BytesInput :=
  match readNumber 32 r with
  | (.error e, r) => (.error e, r)
  | (.ok cs, r) =>
    match readNumber 32 r with
    | (.error e, r) => (.error e, r)
    | (.ok vs, r) =>
      match readNumber 10 r with
      | (.error e, r) => (.error e, r)
      | (.ok total, r) =>
        let n := u32 (cs + vs)
        if r.i + n ≤ r.buf.length then
          let data := (r.buf.drop r.i).take n
          let r' : BytesInput := { r with i := r.i + n }
          if cs ≤ data.length then
            match byteSliceAsUint64Slice (data.take cs), byteSliceAsUint64Slice (data.drop cs) with
            | .ok c, .ok v => (.ok ⟨c, v, total⟩, r')
            | .error e, _ => (.error e, r')
            | _, .error e => (.error e, r')
          else (.error .panicSlice, r')
        else (.error .panicSlice, r)

/-- `modelVersion` = "0.0.2" — pkg/lm/ngram_model.go:26. -/
def modelVersion : List UInt8 := [48, 46, 48, 46, 50]

/-- `nGramModel.Store` — pkg/lm/ngram_model.go:101-122; `nGramOrder` is `uint8(len(indices))`. -/
def modelStore (vs : List PackedArray) : List UInt8 := modelVersion ++ UInt8.ofNat vs.length :: vs.flatMap PackedArray.store

/-- The loop of `Load` — pkg/lm/ngram_model.go:148-157. -/
def loadVectors : Nat → BytesInput → Except Err (List PackedArray) × BytesInput
  | 0, r => (.ok [], r)
  | n + 1, r =>
    match packedArrayLoad r with
    | (.error e, r) => (.error e, r)
    | (.ok v, r) =>
      match loadVectors n r with
      | (.error e, r) => (.error e, r)
      | (.ok vs, r) => (.ok (v :: vs), r)

/-- `nGramModel.Load` — pkg/lm/ngram_model.go:124-160. A short read leaves zero bytes in `version`, which never equals the
version string. -/
def modelLoad (r : BytesInput) : Except Err (List PackedArray) × BytesInput :=
  match r.read 5 with
  | (.error e, r) => (.error e, r)
  | (.ok version, r) =>
    if version ≠ modelVersion then (.error (.other "Version mismatch"), r)
    else
      match r.readByte with
      | (.error e, r) => (.error e, r)
      | (.ok order, r) => loadVectors order r

/-- The binary file of a language model: the n-gram model, then the hash table — pkg/lm/binary.go:37-53. -/
def lmStore (vs : List PackedArray) (table : MPH) : List UInt8 := modelStore vs ++ table.store

/-- Loading it — pkg/lm/binary.go:59-97. -/
def lmLoad (data : List UInt8) : Except Err (List PackedArray × MPH) :=
  match modelLoad (newBytesInput data) with
  | (.error e, _) => .error e
  | (.ok vs, r) =>
    match mphLoad r with
    | (.error e, _) => .error e
    | (.ok table, _) => .ok (vs, table)

end Verif
