import Verif.Model.Service
/- Specification of the service: what a reader may see is determined by the history of publications. -/
namespace Verif.Spec
variable {I D : Type}

/-- The last publication under `name` in a history. -/
def lastPublication (h : List (Publication I D)) (name : String) : Option (Publication I D) :=
  h.reverse.find? fun p => p.name == name

/-- A reader that sees `(idx, dict)` under `name` sees the service as it is after the history `h`: index and dictionary
of the last publication of that name, or nothing. -/
def SeesHistory (h : List (Publication I D)) (name : String) (idx : Option I) (dict : Option D) : Prop :=
  match lastPublication h name with
  | some p => idx = some p.idx ∧ dict = some p.dict
  | none => idx = none ∧ dict = none

end Verif.Spec
