import Verif.Model.Store
/-
Go strings and the parts of the Go standard library the analysis packages use: UTF-8 decoding (`for i, r := range s`,
unicode/utf8.DecodeRune), string(rune) (utf8.EncodeRune), strings.ToLower, strings.Trim(s, " "). A string is its list
of bytes. Runes are natural numbers. Bit operations on bytes are written with `/`, `%` and `+`.
-/
namespace Verif

/-- A Go string (or `[]byte`). -/
abbrev Bytes := List UInt8

/-- `utf8.RuneError`. -/
def runeError : Nat := 0xFFFD

/-- Is the byte in the range `lo..hi`? -/
def inByteRange (lo hi : Nat) (b : UInt8) : Bool := decide (lo ≤ b.toNat) && decide (b.toNat ≤ hi)

/-- The range the second byte of a sequence must lie in; `none` if the first byte does not start a sequence of
`len ≥ 2` bytes: (len, lo, hi) — Go unicode/utf8 tables `first`, `acceptRanges`. -/
def leadInfo (b : Nat) : Option (Nat × Nat × Nat) :=
  if b < 0xC2 then none
  else if b < 0xE0 then some (2, 0x80, 0xBF)
  else if b = 0xE0 then some (3, 0xA0, 0xBF)
  else if b < 0xED then some (3, 0x80, 0xBF)
  else if b = 0xED then some (3, 0x80, 0x9F)
  else if b < 0xF0 then some (3, 0x80, 0xBF)
  else if b = 0xF0 then some (4, 0x90, 0xBF)
  else if b < 0xF4 then some (4, 0x80, 0xBF)
  else if b = 0xF4 then some (4, 0x80, 0x8F)
  else none

/-- `utf8.DecodeRune`: the first rune and its width; `(RuneError, 1)` for an invalid sequence, `(RuneError, 0)` for no
bytes — Go unicode/utf8 DecodeRune. -/
def decodeRune : Bytes → Nat × Nat
  | [] => (runeError, 0)
  | b0 :: t =>
    if b0.toNat < 0x80 then (b0.toNat, 1)
    else
      match leadInfo b0.toNat with
      | none => (runeError, 1)
      | some (len, lo, hi) =>
        match len, t with
        | 2, b1 :: _ =>
          if inByteRange lo hi b1 then (b0.toNat % 0x20 * 64 + b1.toNat % 0x40, 2) else (runeError, 1)
        | 3, b1 :: b2 :: _ =>
          if inByteRange lo hi b1 && inByteRange 0x80 0xBF b2 then
            (b0.toNat % 0x10 * 4096 + b1.toNat % 0x40 * 64 + b2.toNat % 0x40, 3)
          else (runeError, 1)
        | 4, b1 :: b2 :: b3 :: _ =>
          if inByteRange lo hi b1 && inByteRange 0x80 0xBF b2 && inByteRange 0x80 0xBF b3 then
            (b0.toNat % 0x08 * 262144 + b1.toNat % 0x40 * 4096 + b2.toNat % 0x40 * 64 + b3.toNat % 0x40, 4)
          else (runeError, 1)
        | _, _ => (runeError, 1)

theorem decodeRune_width_pos (b : UInt8) (t : Bytes) : 1 ≤ (decodeRune (b :: t)).2 := by
  simp only [decodeRune]
  split
  · simp
  · split
    · simp
    · split <;> (try split) <;> simp

/-- `for i, r := range s`: the pairs (i, r); `off` is the position of `s` in the whole string. -/
def rangeText (off : Nat) : Bytes → List (Nat × Nat)
  | [] => []
  | b :: t =>
    (off, (decodeRune (b :: t)).1) ::
      rangeText (off + (decodeRune (b :: t)).2) ((b :: t).drop (decodeRune (b :: t)).2)
termination_by s => s.length
decreasing_by
  have := decodeRune_width_pos b t
  simp only [List.length_drop, List.length_cons]
  omega

/-- The runes of a string, in order. -/
def runesOf (s : Bytes) : List Nat := (rangeText 0 s).map Prod.snd

/-- `utf8.RuneLen`, for runes that can be encoded. -/
def runeLen (r : Nat) : Nat := if r < 0x80 then 1 else if r < 0x800 then 2 else if r < 0x10000 then 3 else 4

/-- `string(r)` / `utf8.EncodeRune`: surrogates and numbers beyond the last rune become `RuneError`. -/
def encodeRune (r : Nat) : Bytes :=
  if r < 0x80 then [UInt8.ofNat r]
  else if r < 0x800 then [UInt8.ofNat (0xC0 + r / 64), UInt8.ofNat (0x80 + r % 64)]
  else if (0xD800 ≤ r ∧ r < 0xE000) ∨ 0x110000 ≤ r then [0xEF, 0xBF, 0xBD]
  else if r < 0x10000 then
    [UInt8.ofNat (0xE0 + r / 4096), UInt8.ofNat (0x80 + r / 64 % 64), UInt8.ofNat (0x80 + r % 64)]
  else
    [UInt8.ofNat (0xF0 + r / 262144), UInt8.ofNat (0x80 + r / 4096 % 64), UInt8.ofNat (0x80 + r / 64 % 64),
      UInt8.ofNat (0x80 + r % 64)]

/-- `strings.ToLower`: every rune is mapped by `unicode.ToLower` (`lower`, a parameter of the model: the Unicode table
is not modelled); invalid bytes become `RuneError`. The ASCII fast path of the library gives the same string. -/
def toLowerText (lower : Nat → Nat) (s : Bytes) : Bytes := (runesOf s).flatMap fun r => encodeRune (lower r)

/-- The space byte. -/
def spaceByte : UInt8 := 0x20

/-- `strings.Trim(s, " ")`. -/
def trimSpaces (s : Bytes) : Bytes :=
  ((s.dropWhile (· == spaceByte)).reverse.dropWhile (· == spaceByte)).reverse

/-- Go slice expression `s[lo:hi]` on strings (panics when out of range). -/
def sliceText (s : Bytes) (lo hi : Nat) : Except Err Bytes :=
  if lo ≤ hi ∧ hi ≤ s.length then .ok ((s.drop lo).take (hi - lo)) else .error .panicSlice

end Verif
