import Verif.Model.Store
/-
The same `byteInput` methods as in `Verif.Model.Store`, for the three methods whose bounds check
performs an `int64` addition: here the addition wraps around as it does in Go.
-/
namespace Verif

/-- Two's complement wrap-around of `int64`. -/
def wrap64 (x : Int) : Int := (x + 2 ^ 63) % 2 ^ 64 - 2 ^ 63

namespace BytesInput

/-- Slice expression `buf[lo:]` followed by a little-endian read; panics if `lo > len(buf)`. -/
def sliceFrom (buf : List UInt8) (lo : Nat) : Except Err (List UInt8) :=
  if buf.length < lo then .error .panicSlice else .ok (buf.drop lo)

/-- `ReadUInt32` with the `int64` addition of line 197 — pkg/store/byte_input.go:196-205. -/
def readUInt32_i64 (r : BytesInput) : Except Err Nat × BytesInput :=
  if (r.buf.length : Int) < wrap64 (r.i + 4) then (.error .unexpectedEOF, r)
  else
    match sliceFrom r.buf r.i with
    | .error e => (.error e, r)
    | .ok b => (leUint32 b, { r with i := r.i + 4 })

/-- `ReadUInt16` with the `int64` addition of line 209 — pkg/store/byte_input.go:208-217. -/
def readUInt16_i64 (r : BytesInput) : Except Err Nat × BytesInput :=
  if (r.buf.length : Int) < wrap64 (r.i + 2) then (.error .unexpectedEOF, r)
  else
    match sliceFrom r.buf r.i with
    | .error e => (.error e, r)
    | .ok b => (leUint16 b, { r with i := r.i + 2 })

/-- `Slice` with the `int64` addition of line 116 — pkg/store/byte_input.go:115-126. -/
def slice_i64 (r : BytesInput) (off n : Int) : Except Err BytesInput :=
  if n < 0 ∨ off < 0 ∨ (r.buf.length : Int) < wrap64 (off + n) then .error .outOfRange
  else if wrap64 (off + n) < off then .error .panicSlice
  else .ok ⟨(r.buf.drop off.toNat).take (wrap64 (off + n) - off).toNat, 0⟩

end BytesInput

/-- The operations of an `Input` as commands (methods of pkg/store/input.go:10-34 that read). -/
inductive InOp where
  | read (k : Nat) | readByte | readAt (k : Nat) (off : Int) | seek (off whence : Int)
  | readVUInt32 | readUInt32 | readUInt16

/-- What a caller observes of one operation: raw bytes, a number, and an error value. -/
structure InObs where
  bytes : List UInt8 := []
  num : Int := 0
  err : Option Err := none

/-- Observation of a numeric result. -/
def InObs.ofNum : Except Err Nat → InObs
  | .ok v => { num := v }
  | .error e => { err := some e }

/-- One operation on the input: dispatches to the methods of `Verif.Model.Store`. -/
def BytesInput.step (r : BytesInput) : InOp → InObs × BytesInput
  | .read k => match r.read k with
    | (.ok bs, r') => ({ bytes := bs }, r')
    | (.error e, r') => ({ err := some e }, r')
  | .readByte => let p := r.readByte; (InObs.ofNum p.1, p.2)
  | .readAt k off => let p := r.readAt k off; ({ bytes := p.1, err := p.2 }, r)
  | .seek off w => match r.seek off w with
    | (.ok n, r') => ({ num := n }, r')
    | (.error e, r') => ({ err := some e }, r')
  | .readVUInt32 => let p := r.readVUInt32; (InObs.ofNum p.1, p.2)
  | .readUInt32 => let p := r.readUInt32; (InObs.ofNum p.1, p.2)
  | .readUInt16 => let p := r.readUInt16; (InObs.ofNum p.1, p.2)

/-- A history of operations; the observations in order and the final input. -/
def BytesInput.run (r : BytesInput) : List InOp → List InObs × BytesInput
  | [] => ([], r)
  | op :: ops =>
    let p := r.step op
    let q := BytesInput.run p.2 ops
    (p.1 :: q.1, q.2)

end Verif
