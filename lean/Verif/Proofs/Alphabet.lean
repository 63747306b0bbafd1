import Verif.Model.Alphabet
import Verif.Proofs.Text
namespace Verif.Alphabet
open Spec (utf8)

theorem has_composite (ps : List Alphabet) (r : Nat) : (composite ps).has r = ps.any (·.has r) := by
  rw [has, Bool.eq_iff_iff, List.any_eq_true, List.any_eq_true]
  constructor
  · rintro ⟨p, _, h⟩
    exact ⟨p.1, p.2, h⟩
  · rintro ⟨p, hp, h⟩
    exact ⟨⟨p, hp⟩, List.mem_attach _ _, h⟩

theorem chars_composite (ps : List Alphabet) : (composite ps).chars = ps.flatMap chars := by
  rw [chars, List.flatMap_def, List.flatMap_def, List.attach_map_val (f := chars)]

theorem mem_seqChars (min max r : Nat) : r ∈ seqChars min max ↔ min ≤ r ∧ r ≤ max := by
  unfold seqChars
  rw [List.mem_map]
  constructor
  · rintro ⟨a, ha, rfl⟩
    rw [List.mem_range] at ha
    omega
  · intro h
    exact ⟨r - min, by rw [List.mem_range]; omega, by omega⟩

theorem has_create {sort : List Alphabet → List Alphabet} (hs : ∀ l, (sort l).Perm l) (desc : List Bytes) (r : Nat) :
    (create sort desc).has r = true ↔ ∃ e ∈ desc, (ofEntry e).has r = true := by
  rw [create, newComposite, has_composite, List.any_eq_true]
  constructor
  · rintro ⟨p, hp, h⟩
    rw [(hs _).mem_iff, List.mem_map] at hp
    obtain ⟨e, he, rfl⟩ := hp
    exact ⟨e, he, h⟩
  · rintro ⟨e, he, h⟩
    exact ⟨ofEntry e, (hs _).mem_iff.2 (List.mem_map_of_mem he), h⟩

end Verif.Alphabet
