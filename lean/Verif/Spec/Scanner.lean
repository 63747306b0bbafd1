import Verif.Model.Text
/- What "the lines of a file" and "the sentences of a text" are, independently of buffers and of the way bytes arrive. -/
namespace Verif.Spec

/-- A line without the carriage return of a CRLF line end. -/
def chomp (line : Bytes) : Bytes := if line.getLast? = some 13 then line.dropLast else line

/-- The lines of a text: it is cut at the newlines (byte 10); what follows the last newline counts if it is not empty. -/
def lines (text : Bytes) : List Bytes :=
  (if (text.splitOn 10).getLast? = some [] then (text.splitOn 10).dropLast else text.splitOn 10).map chomp

/-- The runes of a text, each with the bytes that encode it. -/
def pieces : Bytes → List (Nat × Bytes)
  | [] => []
  | b :: t =>
    ((decodeRune (b :: t)).1, (b :: t).take (decodeRune (b :: t)).2) :: pieces ((b :: t).drop (decodeRune (b :: t)).2)
termination_by s => s.length
decreasing_by
  have := decodeRune_width_pos b t
  simp only [List.length_drop, List.length_cons]
  omega

/-- The sentences of a text: the maximal non-empty runs of runes that are not separators. -/
def sentences (sep : Nat → Bool) (text : Bytes) : List Bytes :=
  (((pieces text).splitOnP fun p => sep p.1).filter fun run => !run.isEmpty).map fun run => run.flatMap Prod.snd

end Verif.Spec
