import Verif.Model.Text
/- Specification of texts: a text is a list of characters (Unicode scalar values); its bytes are given by Lean's own
UTF-8 encoder. -/
namespace Verif.Spec

/-- The UTF-8 bytes of a list of characters. -/
def utf8 (cs : List Char) : List UInt8 := cs.flatMap String.utf8EncodeChar

/-- All contiguous windows of `n` elements, in order. -/
def windows {α : Type} (n : Nat) (l : List α) : List (List α) :=
  (List.range (l.length - n + 1)).map fun i => (l.drop i).take n

/-- The maximal nonempty runs of elements satisfying `p`. -/
def maximalRuns {α : Type} (p : α → Bool) (l : List α) : List (List α) :=
  (l.splitOnP fun x => !p x).filter fun w => !w.isEmpty

/-- `l` without the elements equal to `x` at both ends. -/
def trim {α : Type} [DecidableEq α] (x : α) (l : List α) : List α :=
  ((l.dropWhile (· == x)).reverse.dropWhile (· == x)).reverse

end Verif.Spec
