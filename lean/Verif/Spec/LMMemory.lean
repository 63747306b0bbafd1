import Verif.Model.LMMemory
import Verif.Model.Spellchecker
/-
What the contents of slices are. Uses the types of Model/LMMemory only.
-/
namespace Verif.LMMem
open Verif

/-- In the memory `M`, the slice `s` is well formed and its elements are `l`. -/
def Holds (M : Ref → Option (List Nat)) (s : Slice) (l : List Nat) : Prop :=
  ∃ a, M s.arr = some a ∧ s.off + s.cap ≤ a.length ∧ s.len ≤ s.cap ∧ (a.drop s.off).take s.len = l

/-- The scorer in memory stands for the scorer `v` of Model/NGramVector (the one with lists). -/
def ScorerOf (M : Ref → Option (List Nat)) (sc : Scorer) (v : ScorerNext) : Prop :=
  Holds M sc.contextCounts v.contextCounts ∧ sc.context = v.context ∧ sc.vector = v.vector

/-- The result of `Next` in memory stands for the result with lists. -/
def NextOf (M : Ref → Option (List Nat)) : Except Err (Option Scorer) → Except Err (Option ScorerNext) → Prop
  | .error e, .error e' => e = e'
  | .ok none, .ok none => True
  | .ok (some sc), .ok (some v) => ScorerOf M sc v
  | _, _ => False

/-- The score of a sentence if slices were values: the words are looked up, then scored (C61). -/
def sentenceAlone (m : LangModel) (getID : Bytes → Except Err Nat) (t : List Bytes) : Except Err (List LMScore) :=
  match mapWords getID t with
  | .error e => .error e
  | .ok ids => m.sentenceScores ids

end Verif.LMMem
