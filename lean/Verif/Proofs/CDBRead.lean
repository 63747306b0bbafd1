import Verif.Spec.CDBRead
import Mathlib.Data.List.Forall2
/-! Walking through the records of a mapped file. -/
namespace Verif.CDBRead
open Verif

theorem readAt_inside {d b : Bytes} {at' : Nat} (h : At d at' b) : MMap.readAt ⟨some d⟩ b.length at' = (b, none) := by
  obtain ⟨h1, h2⟩ := h
  unfold MMap.readAt
  simp only
  rw [if_neg (by omega), if_neg]
  · simp only [Int.toNat_natCast, h2]
  · simp only [Int.toNat_natCast, h2]; omega

theorem readBuf_some {d b : Bytes} {at' : Nat} (h : At d at' b) (hb : b ≠ []) : readBuf (newSection ⟨some d⟩ at' b.length) b.length = .ok b := by
  have hl : 0 < b.length := List.length_pos_iff.2 hb
  unfold readBuf Section.read newSection
  simp only
  rw [if_neg (by omega), show min b.length (at' + b.length - at') = b.length by omega, readAt_inside h]
  simp

theorem readBuf_empty (f : MMap) (at' : Nat) : readBuf (newSection f at' 0) 0 = .error .eof := by
  unfold readBuf Section.read newSection
  simp only
  rw [if_pos (by omega)]

theorem iterate_append {σ : Type} {d : Bytes} {f : σ → Nat → Bytes → σ × Option Err} {ps : List RecPos} {c : CDB} (hst : Stored d ps c)
    (hk : ∀ e ∈ c, e.1.length = 4) (hv : ∀ e ∈ c, e.2 ≠ []) (rest : List RecPos) : ∀ s, iterate ⟨some d⟩ f (ps ++ rest) s =
      match visit f c.pairs s with
      | (s', some e) => (s', some e)
      | (s', none) => iterate ⟨some d⟩ f rest s' := by
  induction hst with
  | nil => intro s; rfl
  | @cons p e ps c h hrest ih =>
    intro s
    obtain ⟨h1, h2, h3, h4⟩ := h
    have hk1 := hk e (by simp)
    have hv1 := hv e (by simp)
    have ek : e.1 ≠ [] := by intro h; rw [h] at hk1; cases hk1
    rw [List.cons_append, iterate, h1, h2, readBuf_some h3 ek, readBuf_some h4 hv1]
    simp only
    rw [if_neg (by omega)]
    have hp : CDB.pairs (e :: c) = (leNat e.1, e.2) :: CDB.pairs c := rfl
    rw [hp, visit]
    generalize f s (leNat e.1) e.2 = q
    obtain ⟨s', o⟩ := q
    cases o with
    | some e => rfl
    | none => exact ih (fun e h => hk e (by simp [h])) (fun e h => hv e (by simp [h])) s'

end Verif.CDBRead
