import Verif.Model.Store
/-
Model of pkg/compression: varint.go, skipping.go, binary.go, compression.go.
`store.Output` is an output that accepts all bytes; an encoder returns the bytes it writes and the
number it reports. A `buf []uint32` to decode into is a list with its old contents; a decoder
returns the number it reports, its error value, the new contents of `buf`, and the input.
-/
namespace Verif

/-- `varIntEncode(list, out, prev)`: bytes written — pkg/compression/varint.go:36-56. -/
def varIntEncode : List Nat → Nat → List UInt8
  | [], _ => []
  | v :: vs, prev => encVUInt32 (u32sub v prev) ++ varIntEncode vs v

/-- The `total` reported by `varIntEncode` — pkg/compression/varint.go:36-44,55. -/
def varIntEncodeTotal : List Nat → Nat → Nat
  | [], _ => 0
  | v :: vs, prev => (encVUInt32 (u32sub v prev)).length + varIntEncodeTotal vs v

/-- Result of a decoder. -/
structure DecRes where
  n : Nat
  err : Option Err
  buf : List Nat
  inp : BytesInput
  deriving DecidableEq, Repr

/-- `varIntDecode(in, buf, prev)` — pkg/compression/varint.go:58-78. -/
def varIntDecode (r : BytesInput) : List Nat → Nat → DecRes
  | [], _ => ⟨0, none, [], r⟩
  | o :: os, prev =>
    match r.readVUInt32 with
    | (.error e, r') =>
      if e = .eof ∨ e = .unexpectedEOF then ⟨0, none, o :: os, r'⟩
      else ⟨0, some e, o :: os, r'⟩
    | (.ok v, r') =>
      let p := u32 (prev + v)
      let d := varIntDecode r' os p
      ⟨d.n + 1, d.err, p :: d.buf, d.inp⟩

/-- `vbEnc.Encode` — pkg/compression/varint.go:26-28. -/
def vbEncode (list : List Nat) : List UInt8 × Nat := (varIntEncode list 0, varIntEncodeTotal list 0)

/-- `vbEnc.Decode` — pkg/compression/varint.go:32-34. -/
def vbDecode (r : BytesInput) (buf : List Nat) : DecRes := varIntDecode r buf 0

/-- `binaryEnc.Encode` — pkg/compression/binary.go:24-39. -/
def binEncode (list : List Nat) : List UInt8 × Nat :=
  ((list.map encUInt32).flatten, (list.map fun v => (encUInt32 v).length).sum)

/-- `binaryEnc.Decode` — pkg/compression/binary.go:43-59. -/
def binDecode (r : BytesInput) : List Nat → DecRes
  | [] => ⟨0, none, [], r⟩
  | o :: os =>
    match r.readUInt32 with
    | (.error e, r') => ⟨0, if e = .eof then none else some e, o :: os, r'⟩
    | (.ok v, r') =>
      let d := binDecode r' os
      ⟨d.n + 1, d.err, v :: d.buf, d.inp⟩

/-- `lastBlockFlag = 1 << 15` — pkg/compression/skipping.go:21. -/
def lastBlockFlag : Nat := 1 <<< 15

/-- `maxSkippingGap = (1 << 14) / 5` — pkg/compression/skipping.go:23. -/
def maxSkippingGap : Nat := (1 <<< 14) / 5

/-- `SkippingEncoder(gap)` / `SkippingDecoder(gap)`: accepts the gap or reports overflow —
pkg/compression/skipping.go:36-57. -/
def skippingNew (gap : Int) : Except Err Int :=
  if gap ≥ maxSkippingGap then .error .gapOverflow else .ok gap

/-- Body of the loop of `skippingEnc.Encode`. `list` is the part not yet written (`list[i:]`),
`fuel` bounds the number of iterations (`none` = still running when the fuel is used up) —
pkg/compression/skipping.go:80-112. -/
def skipEncLoop (gap : Nat) : (fuel : Nat) → List Nat → (prev : Nat) → Option (List UInt8 × Nat)
  | fuel, list, prev =>
    match list with
    | [] => some ([], 0)
    | x :: _ =>
      match fuel with
      | 0 => none
      | fuel + 1 =>
        let j := min gap list.length
        let block := list.take j
        let pos := varIntEncodeTotal block prev + 2
        let hdr := if j = list.length then pos ||| lastBlockFlag else pos
        match skipEncLoop gap fuel (list.drop gap) x with
        | none => none
        | some (bytes, total) =>
          some (encUInt16 (hdr % 2 ^ 16) ++ varIntEncode block prev ++ bytes, pos + total)

/-- `skippingEnc.Encode` — pkg/compression/skipping.go:67-115. A negative gap panics in
`make([]byte, 0, b.gap*5)`; `none` stands for a loop that has not ended after `fuel` iterations. -/
def skipEncode (gap : Int) (fuel : Nat) (list : List Nat) : Option (Except Err (List UInt8 × Nat)) :=
  if (list.length : Int) < gap then some (.error .gapTooBig)
  else if gap < 0 then some (.error .panicMake)
  else (skipEncLoop gap.toNat fuel list 0).map .ok

/-- Loop of `skippingEnc.Decode`; `old` is `buf[i:]` — pkg/compression/skipping.go:119-146.
The returned `n` is the amount by which `i` grew. `gap ≥ 1` (a gap of 0 never ends: fuel). -/
def skipDecLoop (gap : Nat) : (fuel : Nat) → BytesInput → (old : List Nat) → (prev : Nat) →
    Option DecRes
  | fuel, r, old, prev =>
    match old with
    | [] => some ⟨0, none, [], r⟩
    | o :: _ =>
      match fuel with
      | 0 => none
      | fuel + 1 =>
        match r.readUInt16 with
        | (.error e, r') => some ⟨0, some e, old, r'⟩
        | (.ok _, r') =>
          let j := min gap old.length
          let d := varIntDecode r' (old.take j) prev
          match d.err with
          | some e => some ⟨0, some e, d.buf ++ old.drop j, d.inp⟩
          | none =>
            let prev := d.buf.headD o
            match skipDecLoop gap fuel d.inp (old.drop j) prev with
            | none => none
            | some d' => some ⟨gap + d'.n, d'.err, d.buf ++ d'.buf, d'.inp⟩

/-- `skippingEnc.Decode` — pkg/compression/skipping.go:119-146: on an error the count is 0. -/
def skipDecode (gap : Nat) (fuel : Nat) (r : BytesInput) (buf : List Nat) : Option DecRes :=
  (skipDecLoop gap fuel r buf 0).map fun d => if d.err.isSome then { d with n := 0 } else d

/-- `UnpackPos` — pkg/compression/skipping.go:149-151. -/
def unpackPos (packed : Nat) : Nat × Bool :=
  (packed &&& (lastBlockFlag - 1), (packed &&& lastBlockFlag) == lastBlockFlag)

end Verif
