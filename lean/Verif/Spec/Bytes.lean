/-
Independent specification of the little-endian base-128 (LEB128) format. Does not import the model.
-/
namespace Verif.Spec

/-- Value denoted by a list of 7-bit groups, least significant first. -/
def leb (bs : List UInt8) : Nat :=
  match bs with
  | [] => 0
  | b :: bs => b.toNat % 128 + 128 * leb bs

/-- A well-formed code: continuation bytes (≥ 0x80) followed by one final byte (< 0x80). -/
def IsCode (code : List UInt8) : Prop :=
  ∃ pre t, code = pre ++ [t] ∧ (∀ b ∈ pre, 128 ≤ b.toNat) ∧ t.toNat < 128

/-- Little-endian value of a list of bytes. -/
def le (bs : List UInt8) : Nat :=
  match bs with
  | [] => 0
  | b :: bs => b.toNat + 256 * le bs

end Verif.Spec
