import Verif.Model.Iterator
import Verif.Model.Compression
/-
Model of pkg/index/posting_list.go, skipping_posting_list.go, bitmap_posting_list.go, codec.go.
-/
namespace Verif

/-- `PostingListContext` — pkg/index/posting_list_context.go:9-12. -/
structure PLContext where
  listSize : Nat
  reader : BytesInput
  deriving DecidableEq, Repr

/-! ### postingList (variable byte) -/

/-- `type postingList struct` — pkg/index/posting_list.go:16-21. -/
structure VBList where
  input : BytesInput
  index : Nat
  size : Nat
  current : Nat
  deriving DecidableEq, Repr

namespace VBList

/-- `isValid` — pkg/index/posting_list.go:89-91. -/
def isValid (s : VBList) : Bool := s.index < s.size

/-- `Get` — pkg/index/posting_list.go:24-30. -/
def get (s : VBList) : Except Err Nat :=
  if !s.isValid then .error .notDereferencable else .ok s.current

/-- `HasNext` — pkg/index/posting_list.go:33-35. -/
def hasNext (s : VBList) : Bool := s.index + 1 < s.size

/-- `Next` — pkg/index/posting_list.go:38-53. -/
def next (s : VBList) : Except Err Nat × VBList :=
  if !s.hasNext then (.error .notDereferencable, s)
  else
    match s.input.readVUInt32 with
    | (.error e, inp) => (.error e, { s with input := inp })
    | (.ok cur, inp) =>
      let c := u32 (s.current + cur)
      (.ok c, { s with input := inp, index := s.index + 1, current := c })

/-- The loop of `LowerBound` — pkg/index/posting_list.go:66-80. The first argument bounds the
number of iterations; `lowerBound` passes `size`, which is always enough because each successful
`Next` increases `index`. -/
def lbLoop (bnd : Nat) : Nat → VBList → Except Err Nat × VBList
  | 0, s => (.error .notDereferencable, { s with index := s.size })
  | k + 1, s =>
    if s.hasNext then
      match s.next with
      | (.error e, s') => (.error e, s')
      | (.ok cur, s') => if cur ≥ bnd then (.ok cur, s') else lbLoop bnd k s'
    else (.error .notDereferencable, { s with index := s.size })

/-- `LowerBound` — pkg/index/posting_list.go:57-81. -/
def lowerBound (s : VBList) (bnd : Nat) : Except Err Nat × VBList :=
  if !s.isValid then (.error .notDereferencable, s)
  else if s.current ≥ bnd then (.ok s.current, s)
  else lbLoop bnd s.size s

/-- `Len` — pkg/index/posting_list.go:84-86. -/
def len (s : VBList) : Nat := s.size

/-- `Init` on a pooled object (all fields are overwritten) — pkg/index/posting_list.go:94-108. -/
def init (ctx : PLContext) : Except Err VBList :=
  match ctx.reader.readVUInt32 with
  | (.error e, _) => .error e
  | (.ok cur, inp) => .ok ⟨inp, 0, ctx.listSize, cur⟩

instance : ListIter VBList := ⟨get, hasNext, next, lowerBound, len⟩

end VBList

/-! ### skippingPostingList -/

/-- `type skippingPostingList struct` — pkg/index/skipping_posting_list.go:13-22. -/
structure SkipList where
  input : BytesInput
  index : Nat
  size : Nat
  current : Nat
  currentSkipValue : Nat
  nextSkipPosition : Nat
  skippingGap : Nat
  isLastBlock : Bool
  deriving DecidableEq, Repr

namespace SkipList

/-- `isValid` — pkg/index/skipping_posting_list.go:153-155. -/
def isValid (s : SkipList) : Bool := s.index < s.size

/-- `Get` — pkg/index/skipping_posting_list.go:25-31. -/
def get (s : SkipList) : Except Err Nat :=
  if !s.isValid then .error .notDereferencable else .ok s.current

/-- `HasNext` — pkg/index/skipping_posting_list.go:34-36. -/
def hasNext (s : SkipList) : Bool := s.index + 1 < s.size

/-- `readSkipping` — pkg/index/skipping_posting_list.go:181-201. -/
def readSkipping (s : SkipList) : Option Err × SkipList :=
  match s.input.readUInt16 with
  | (.error e, inp) => (some e, { s with input := inp })
  | (.ok w, inp) =>
    let (position, isLast) := unpackPos w
    match inp.readVUInt32 with
    | (.error e, inp') => (some e, { s with input := inp' })
    | (.ok cur, inp') =>
      let c := u32 (s.currentSkipValue + cur)
      (none, { s with
        input := inp', current := c, currentSkipValue := c,
        nextSkipPosition := s.nextSkipPosition + position, isLastBlock := isLast })

/-- `Next` — pkg/index/skipping_posting_list.go:39-67. `Seek(0, SeekCurrent)` is the cursor. -/
def next (s : SkipList) : Except Err Nat × SkipList :=
  if !s.hasNext then (.error .notDereferencable, s)
  else if s.input.i = s.nextSkipPosition then
    match s.readSkipping with
    | (some e, s') => (.error e, s')
    | (none, s') => (.ok s'.current, { s' with index := s'.index + 1 })
  else
    match s.input.readVUInt32 with
    | (.error e, inp) => (.error e, { s with input := inp })
    | (.ok cur, inp) =>
      let c := u32 (s.current + cur)
      (.ok c, { s with input := inp, current := c, index := s.index + 1 })

/-- `moveToPosition` (a `Seek` to a non-negative position never fails) —
pkg/index/skipping_posting_list.go:158-167. -/
def moveToPosition (s : SkipList) (p : Nat) : SkipList := { s with input := { s.input with i := p } }

/-- First loop of `LowerBound` (over blocks) — pkg/index/skipping_posting_list.go:88-127; the first
argument bounds the number of iterations (`lowerBound` passes `size`). Since the `Input` is shared
by pointer, `*i = prev` restores all fields while the position of the input is restored by
`moveToPosition`. -/
def blockLoop (bnd : Nat) : Nat → (skips : Nat) → SkipList → Option Err × SkipList
  | 0, _, s => (none, s)
  | k + 1, skips, s =>
    if !s.isLastBlock && s.hasNext then
      let prev := s
      let prevPosition := s.input.i
      let s1 := s.moveToPosition s.nextSkipPosition
      let skips := skips + 1
      let s2 := { s1 with index := skips * s1.skippingGap - 1 }
      let s3 := if s2.index ≥ s2.size then { s2 with index := s2.size - 2 } else s2
      match s3.next with
      | (.error e, s4) => (some e, s4)
      | (.ok cur, s4) =>
        if cur < bnd && !s4.isLastBlock then blockLoop bnd k skips s4
        else if cur ≥ bnd then
          let s5 := s4.moveToPosition prevPosition
          (none, { prev with input := s5.input })
        else blockLoop bnd k skips s4
    else (none, s)

/-- Second loop of `LowerBound` (sequential) — pkg/index/skipping_posting_list.go:130-144; the first
argument bounds the number of iterations. -/
def seqLoop (bnd : Nat) : Nat → SkipList → Except Err Nat × SkipList
  | 0, s => (.error .notDereferencable, { s with index := s.size })
  | k + 1, s =>
    if s.hasNext then
      match s.next with
      | (.error e, s') => (.error e, s')
      | (.ok cur, s') => if cur ≥ bnd then (.ok cur, s') else seqLoop bnd k s'
    else (.error .notDereferencable, { s with index := s.size })

/-- `LowerBound` — pkg/index/skipping_posting_list.go:71-145. -/
def lowerBound (s : SkipList) (bnd : Nat) : Except Err Nat × SkipList :=
  if !s.isValid then (.error .notDereferencable, s)
  else if s.current ≥ bnd then (.ok s.current, s)
  else
    let skips := if s.index > 0 then s.index / s.skippingGap else 0
    match blockLoop bnd s.size skips s with
    | (some e, s') => (.error e, s')
    | (none, s') => seqLoop bnd s.size s'

/-- `Len` — pkg/index/skipping_posting_list.go:148-150. -/
def len (s : SkipList) : Nat := s.size

/-- `Init` on a pooled object `old` (its stale fields are kept where `Init` does not set them) —
pkg/index/skipping_posting_list.go:170-178. -/
def init (old : SkipList) (ctx : PLContext) : Except Err SkipList :=
  match readSkipping { old with input := ctx.reader, size := ctx.listSize, index := 0,
                                currentSkipValue := 0, nextSkipPosition := 0 } with
  | (some e, _) => .error e
  | (none, s) => .ok s

instance : ListIter SkipList := ⟨get, hasNext, next, lowerBound, len⟩

end SkipList

/-! ### bitmapPostingList over an abstract roaring bitmap library -/

/-- The part of github.com/RoaringBitmap/roaring used by the project, as a parameter:
`writeTo` = bytes written for the set of the given numbers (New, Add…, RunOptimize, WriteTo);
`fromBuffer`, `iterator`, `cardinality`; iterator operations of `IntPeekable`.
pkg/compression/bitmap.go:18-29, pkg/index/bitmap_posting_list.go:74-105. -/
structure Roaring where
  Bitmap : Type
  It : Type
  writeTo : List Nat → List UInt8
  fromBuffer : List UInt8 → Except Err Bitmap
  iterator : Bitmap → It
  cardinality : Bitmap → Nat
  hasNext : It → Bool
  next : It → Nat × It
  advanceIfNeeded : It → Nat → It

/-- Contract assumed of the library (trusted base): a bitmap read from the bytes written for `l`
iterates the members of `l` in strictly ascending order. `Rep it rem` = "`it` will still deliver `rem`". -/
structure Roaring.Lawful (ρ : Roaring) where
  Rep : ρ.It → List Nat → Prop
  hasNext_iff : ∀ it rem, Rep it rem → ρ.hasNext it = !rem.isEmpty
  next_eq : ∀ it x rem, Rep it (x :: rem) → (ρ.next it).1 = x ∧ Rep (ρ.next it).2 rem
  advance : ∀ it rem bnd, Rep it rem → Rep (ρ.advanceIfNeeded it bnd) (rem.dropWhile (· < bnd))
  roundtrip : ∀ l : List Nat, (∀ x ∈ l, x < 2 ^ 32) → ∃ b s, ρ.fromBuffer (ρ.writeTo l) = .ok b ∧
    s.Pairwise (· < ·) ∧ (∀ x, x ∈ s ↔ x ∈ l) ∧ ρ.cardinality b = s.length ∧ Rep (ρ.iterator b) s
  nonempty : ∀ l : List Nat, l ≠ [] → ρ.writeTo l ≠ []

/-- `type bitmapPostingList struct` — pkg/index/bitmap_posting_list.go:12-18. -/
structure BitmapList (ρ : Roaring) where
  iterator : ρ.It
  current : Nat
  isValid : Bool
  length : Nat

namespace BitmapList
variable {ρ : Roaring}

/-- `Get` — pkg/index/bitmap_posting_list.go:21-27. -/
def get (s : BitmapList ρ) : Except Err Nat :=
  if !s.isValid then .error .notDereferencable else .ok s.current

/-- `HasNext` — pkg/index/bitmap_posting_list.go:30-32. -/
def hasNext (s : BitmapList ρ) : Bool := s.isValid && ρ.hasNext s.iterator

/-- `Next` — pkg/index/bitmap_posting_list.go:35-43. -/
def next (s : BitmapList ρ) : Except Err Nat × BitmapList ρ :=
  if !s.hasNext then (.error .notDereferencable, s)
  else
    let p := ρ.next s.iterator
    (.ok p.1, { s with iterator := p.2, current := p.1 })

/-- `LowerBound` — pkg/index/bitmap_posting_list.go:47-66. -/
def lowerBound (s : BitmapList ρ) (bnd : Nat) : Except Err Nat × BitmapList ρ :=
  if !s.isValid then (.error .notDereferencable, s)
  else if s.current ≥ bnd then (.ok s.current, s)
  else
    let it := ρ.advanceIfNeeded s.iterator bnd
    if !ρ.hasNext it then (.error .notDereferencable, { s with iterator := it, isValid := false })
    else
      let p := ρ.next it
      (.ok p.1, { s with iterator := p.2, current := p.1 })

/-- `Len` — pkg/index/bitmap_posting_list.go:69-71. -/
def len (s : BitmapList ρ) : Nat := s.length

/-- `Init` — pkg/index/bitmap_posting_list.go:74-105. The reader is always a `byteInput`, which is
`SliceAccessible`: its whole data is used, not the part after the cursor. -/
def init (ρ : Roaring) (ctx : PLContext) : Except Err (BitmapList ρ) :=
  match ρ.fromBuffer ctx.reader.buf with
  | .error e => .error e
  | .ok b =>
    let it := ρ.iterator b
    if !ρ.hasNext it then .error (.other "bitmap should not be empty")
    else
      let p := ρ.next it
      .ok ⟨p.2, p.1, true, ρ.cardinality b⟩

instance : ListIter (BitmapList ρ) := ⟨get, hasNext, next, lowerBound, len⟩

end BitmapList

/-! ### codec.go -/

/-- `skippingGapSize` — pkg/index/codec.go:11. -/
def skippingGapSize : Nat := 64
/-- `maxSkippingLen` — pkg/index/codec.go:12. -/
def maxSkippingLen : Nat := 256

/-- `encoder.Encode` with the encoders of `NewEncoder`: bytes written and the number reported —
pkg/index/codec.go:17-51. (`skipEncode` gets enough fuel; that it always ends is part of C11.) -/
def codecEncode (ρ : Roaring) (list : List Nat) : Except Err (List UInt8 × Nat) :=
  let n := list.length
  if n ≤ skippingGapSize + 1 then .ok (vbEncode list)
  else if n ≤ maxSkippingLen then
    match skipEncode skippingGapSize n list with
    | some r => r
    | none => .error (.other "loop does not end")
  else
    let b := ρ.writeTo list
    .ok (b, b.length)

/-- A posting list of one of the three implementations. -/
inductive PList (ρ : Roaring) where
  | vb (s : VBList)
  | skip (s : SkipList)
  | bitmap (s : BitmapList ρ)

/-- A skipping posting list as found in the pool: gap 64 and otherwise arbitrary stale fields —
pkg/index/codec.go:60-66. -/
def pooledSkip (stale : SkipList) : SkipList := { stale with skippingGap := skippingGapSize }

/-- `resolvePostingList(context)` followed by `Init(context)` — pkg/index/codec.go:76-88,
pkg/index/inverted_index.go:57-74. `stale` is the state of the pooled skipping list. -/
def openPList (ρ : Roaring) (stale : SkipList) (ctx : PLContext) : Except Err (PList ρ) :=
  let n := ctx.listSize
  if n ≤ skippingGapSize + 1 then (VBList.init ctx).map .vb
  else if n ≤ maxSkippingLen then (SkipList.init (pooledSkip stale) ctx).map .skip
  else (BitmapList.init ρ ctx).map .bitmap

namespace PList
variable {ρ : Roaring}

instance : ListIter (PList ρ) where
  get
    | .vb s => s.get
    | .skip s => s.get
    | .bitmap s => s.get
  hasNext
    | .vb s => s.hasNext
    | .skip s => s.hasNext
    | .bitmap s => s.hasNext
  next
    | .vb s => (s.next.1, .vb s.next.2)
    | .skip s => (s.next.1, .skip s.next.2)
    | .bitmap s => (s.next.1, .bitmap s.next.2)
  lowerBound
    | .vb s, bnd => ((s.lowerBound bnd).1, .vb (s.lowerBound bnd).2)
    | .skip s, bnd => ((s.lowerBound bnd).1, .skip (s.lowerBound bnd).2)
    | .bitmap s, bnd => ((s.lowerBound bnd).1, .bitmap (s.lowerBound bnd).2)
  len
    | .vb s => s.len
    | .skip s => s.len
    | .bitmap s => s.len

end PList
end Verif
