import Mathlib.Data.Rat.Defs
import Mathlib.Order.Basic
/- Decimal integers. Does not import the model. -/
namespace Verif.Spec

/-- The number written by the decimal digits `s`. -/
def decimalValue (s : List UInt8) : Nat := s.foldl (fun n c => n * 10 + (c.toNat - 48)) 0

/-- `s` is a nonempty string of the digits 0-9. -/
def IsDigits (s : List UInt8) : Prop := s ≠ [] ∧ ∀ c ∈ s, 48 ≤ c.toNat ∧ c.toNat ≤ 57

/-- `s` is a decimal integer with an optional sign, and its value is `n`. -/
def IsDecimal (s : List UInt8) (n : Int) : Prop :=
  (IsDigits s ∧ n = decimalValue s) ∨
  (∃ d, s = 43 :: d ∧ IsDigits d ∧ n = decimalValue d) ∨
  ∃ d, s = 45 :: d ∧ IsDigits d ∧ n = -decimalValue d

end Verif.Spec
