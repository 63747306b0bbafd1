import Verif.Model.WriteErrors
/-!
C85: failing system calls.
-/
namespace Verif.Faulty

/-- One of the system calls from number `a` to (excluding) `b` failed. -/
def Failed (dev : Device) (a b : Nat) : Prop := ∃ i, a ≤ i ∧ i < b ∧ dev i ≠ none

/-- An empty directory. -/
def emptyDisk : Disk := ⟨fun _ => none, 0, []⟩

end Verif.Faulty
