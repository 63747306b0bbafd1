/-
Model of pkg/store: byte_input.go, byte_output.go.

Conventions (see DESIGN.md):
* a `[]byte` is a `List UInt8`; `uint32`/`uint16` values are natural numbers and every wrap-around
  of the Go code is written out with `u32`/`u32sub`;
* the `int64` cursor is an unbounded `Nat` here (`Seek` rejects negative positions); what happens
  when `r.i + 4` overflows `int64` is modelled separately in `Verif.Model.StoreInt64`;
* a method that returns `(v, err)` and mutates the receiver returns the pair
  `(Except Err value, new receiver)`, so that the cursor after a failure is observable.
-/
namespace Verif

/-- Errors returned by the modelled packages; `panic…` constructors stand for Go run-time panics.
pkg/store/byte_input.go:11-20, io.EOF, io.ErrUnexpectedEOF, pkg/merger/list_iterator.go:10,
pkg/compression/skipping.go:10-17. -/
inductive Err where
  | eof | unexpectedEOF | u32Overflow | negativeOffset | outOfRange | invalidWhence
  | notDereferencable | gapTooBig | gapOverflow | iterStop
  | other (msg : String)
  | panicIndex | panicSlice | panicMake | panicDivide | panicOverflow
  deriving DecidableEq, Repr

/-- Is this value a Go panic (as opposed to an error return)? -/
def Err.isPanic : Err → Bool
  | .panicIndex | .panicSlice | .panicMake | .panicDivide | .panicOverflow => true
  | _ => false

/-- Conversion of an integer to `uint32` (truncation). -/
def u32 (n : Nat) : Nat := n % 2 ^ 32

/-- `a - b` on `uint32` (wraps around); both arguments are `< 2^32`. -/
def u32sub (a b : Nat) : Nat := (a + 2 ^ 32 - b) % 2 ^ 32

/-- `type byteInput struct { buf []byte; i int64 }` — pkg/store/byte_input.go:31-34. -/
structure BytesInput where
  buf : List UInt8
  i : Nat
  deriving DecidableEq, Repr

/-- `NewBytesInput` — pkg/store/byte_input.go:23-28. -/
def newBytesInput (buf : List UInt8) : BytesInput := ⟨buf, 0⟩

namespace BytesInput

/-- Go indexing expression `buf[i]` (panics when out of range). -/
def byteAt (buf : List UInt8) (i : Nat) : Except Err Nat :=
  match buf[i]? with
  | some b => .ok b.toNat
  | none => .error .panicIndex

/-- `Read(b)` with `len(b) = k` — pkg/store/byte_input.go:42-51. Returns the bytes copied. -/
def read (r : BytesInput) (k : Nat) : Except Err (List UInt8) × BytesInput :=
  if r.buf.length ≤ r.i then (.error .eof, r)
  else
    let out := (r.buf.drop r.i).take k
    (.ok out, { r with i := r.i + out.length })

/-- `ReadAt(b, off)` with `len(b) = k` — pkg/store/byte_input.go:59-75. Returns the bytes copied
and the error value (`none` for nil). The receiver is unchanged. -/
def readAt (r : BytesInput) (k : Nat) (off : Int) : List UInt8 × Option Err :=
  if off < 0 then ([], some .negativeOffset)
  else if (r.buf.length : Int) ≤ off then ([], some .eof)
  else
    let out := (r.buf.drop off.toNat).take k
    (out, if out.length < k then some .eof else none)

/-- `ReadByte` — pkg/store/byte_input.go:78-87. -/
def readByte (r : BytesInput) : Except Err Nat × BytesInput :=
  if r.buf.length ≤ r.i then (.error .eof, r)
  else (byteAt r.buf r.i, { r with i := r.i + 1 })

/-- `Seek(offset, whence)`; whence 0/1/2 = SeekStart/SeekCurrent/SeekEnd —
pkg/store/byte_input.go:91-112. -/
def seek (r : BytesInput) (offset : Int) (whence : Int) : Except Err Int × BytesInput :=
  let abs? : Option Int :=
    if whence = 0 then some offset
    else if whence = 1 then some (r.i + offset)
    else if whence = 2 then some (r.buf.length + offset)
    else none
  match abs? with
  | none => (.error .invalidWhence, r)
  | some a => if a < 0 then (.error .negativeOffset, r) else (.ok a, { r with i := a.toNat })

/-- `Slice(off, n)` — pkg/store/byte_input.go:115-126. -/
def slice (r : BytesInput) (off n : Int) : Except Err BytesInput :=
  if n < 0 ∨ off < 0 ∨ (r.buf.length : Int) < off + n then .error .outOfRange
  else .ok ⟨(r.buf.drop off.toNat).take n.toNat, 0⟩

/-- Loop of `readVarUInt32Slow`, `k` = iterations left (`s = 35 - 7k`) —
pkg/store/byte_input.go:221-245. Result: value and new cursor. -/
def slowLoop (buf : List UInt8) : (k s i v : Nat) → Except Err (Nat × Nat)
  | 0, _, _, _ => .error .u32Overflow
  | k + 1, s, i, v =>
    if buf.length ≤ i then .error .unexpectedEOF
    else
      match byteAt buf i with
      | .error e => .error e
      | .ok b =>
        let v := v ||| u32 ((b &&& 0x7f) <<< s)
        if b < 0x80 then .ok (v, i + 1) else slowLoop buf k (s + 7) (i + 1) v

/-- `readVarUInt32Slow` — pkg/store/byte_input.go:221-245. -/
def readVUInt32Slow (r : BytesInput) : Except Err Nat × BytesInput :=
  match slowLoop r.buf 5 0 r.i 0 with
  | .ok (v, i) => (.ok v, { r with i := i })
  | .error e => (.error e, r)

/-- The unrolled path of `ReadVUInt32` after the first byte —
pkg/store/byte_input.go:146-192. Result: value and new cursor. -/
def fastPath (buf : List UInt8) (i : Nat) : Except Err (Nat × Nat) := do
  let b0 ← byteAt buf i
  let v := u32sub b0 0x80
  let i := i + 1
  let b ← byteAt buf i
  let i := i + 1
  let v := u32 (v + u32 (b <<< 7))
  if b &&& 0x80 = 0 then return (v, i)
  let v := u32sub v (0x80 <<< 7)
  let b ← byteAt buf i
  let i := i + 1
  let v := u32 (v + u32 (b <<< 14))
  if b &&& 0x80 = 0 then return (v, i)
  let v := u32sub v (0x80 <<< 14)
  let b ← byteAt buf i
  let i := i + 1
  let v := u32 (v + u32 (b <<< 21))
  if b &&& 0x80 = 0 then return (v, i)
  let v := u32sub v (0x80 <<< 21)
  let b ← byteAt buf i
  let i := i + 1
  let v := u32 (v + u32 (b <<< 28))
  if b &&& 0x80 = 0 then return (v, i)
  throw .u32Overflow

/-- `ReadVUInt32` — pkg/store/byte_input.go:130-193. -/
def readVUInt32 (r : BytesInput) : Except Err Nat × BytesInput :=
  if r.buf.length ≤ r.i then (.error .u32Overflow, r)
  else
    match byteAt r.buf r.i with
    | .error e => (.error e, r)
    | .ok b =>
      if b < 0x80 then (.ok b, { r with i := r.i + 1 })
      else if r.buf.length - r.i < 5 then readVUInt32Slow r
      else
        match fastPath r.buf r.i with
        | .ok (v, i) => (.ok v, { r with i := i })
        | .error e => (.error e, r)

/-- `binary.LittleEndian.Uint32(b)` on a slice (panics if shorter than 4). -/
def leUint32 (b : List UInt8) : Except Err Nat :=
  match b with
  | b0 :: b1 :: b2 :: b3 :: _ =>
    .ok (b0.toNat ||| (b1.toNat <<< 8) ||| (b2.toNat <<< 16) ||| (b3.toNat <<< 24))
  | _ => .error .panicIndex

/-- `binary.LittleEndian.Uint16(b)` on a slice (panics if shorter than 2). -/
def leUint16 (b : List UInt8) : Except Err Nat :=
  match b with
  | b0 :: b1 :: _ => .ok (b0.toNat ||| (b1.toNat <<< 8))
  | _ => .error .panicIndex

/-- `ReadUInt32` — pkg/store/byte_input.go:196-205. -/
def readUInt32 (r : BytesInput) : Except Err Nat × BytesInput :=
  if r.buf.length < r.i + 4 then (.error .unexpectedEOF, r)
  else (leUint32 (r.buf.drop r.i), { r with i := r.i + 4 })

/-- `ReadUInt16` — pkg/store/byte_input.go:208-217. -/
def readUInt16 (r : BytesInput) : Except Err Nat × BytesInput :=
  if r.buf.length < r.i + 2 then (.error .unexpectedEOF, r)
  else (leUint16 (r.buf.drop r.i), { r with i := r.i + 2 })

end BytesInput

/-- Bytes written by `WriteVUInt32(v)` — pkg/store/byte_output.go:26-38. The local array
`chunk` has 5 cells; that 5 always suffices for a `uint32` is part of C01. The underlying
`io.Writer` is one that accepts all bytes (`bytes.Buffer`, or a file that does not fail); the
number returned by the method is the length of this list. -/
def encVUInt32 (v : Nat) : List UInt8 :=
  if _h : v ≤ 0x7F then [UInt8.ofNat v]
  else UInt8.ofNat (0x80 ||| (v &&& 0x7F)) :: encVUInt32 (v >>> 7)
termination_by v
decreasing_by
  simp only [Nat.shiftRight_eq_div_pow]; omega

/-- Bytes written by `WriteUInt32(v)` (little endian) — pkg/store/byte_output.go:41-46. -/
def encUInt32 (v : Nat) : List UInt8 :=
  [UInt8.ofNat v, UInt8.ofNat (v >>> 8), UInt8.ofNat (v >>> 16), UInt8.ofNat (v >>> 24)]

/-- Bytes written by `WriteUInt16(v)` (little endian) — pkg/store/byte_output.go:49-54. -/
def encUInt16 (v : Nat) : List UInt8 := [UInt8.ofNat v, UInt8.ofNat (v >>> 8)]

end Verif
