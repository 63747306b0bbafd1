import Verif.Proofs.SuggestFinal
/- What a final state of the Suggest transition system guarantees without any assumption about rounding. -/
namespace Verif
open Spec Heap
open TopKQueue

section
variable {S : Type} [LinearOrder S] [Inhabited S] {Env : Type}
variable {c : SConf S Env} {docs : List Doc} {q : List String}
variable {K : Nat} (hK : 0 < K) (htop : c.topK = K) (hs : SegmentsOk c.indices docs q)
  (hd : DocsOk docs q c.sizeA)

include hK htop hs hd in
theorem final_sound (hp : PosLaws c) {s : SState S} (hr : c.Reachable s) (hf : s.final) :
    ∃ ds : List Doc, s.result = .ok (ds.map (candOf c q)) ∧ ds.Nodup ∧ ds.length ≤ K ∧
      BestFirst (ds.map (candOf c q)) ∧
      (∀ d ∈ ds, d ∈ docs ∧ 1 ≤ d.terms.length ∧ ∃ α, Bound c α ∧ c.thr α d.terms.length ≤ shared q d) ∧
      ∀ d ∈ docs, (d.terms.length : Int) ∈ allSizes c → d ∉ ds →
        (ds.length = K ∧ ∀ x ∈ ds, (candOf c q x).betterEq (candOf c q d) = true) ∨
        ∃ α, Bound c α ∧ ¬ c.thr α d.terms.length ≤ shared q d ∧
          (α = c.similarity ∨ ds.length = K ∧ ∀ x ∈ ds, α ≤ (candOf c q x).score) := by
  classical
  obtain ⟨dn, C, hres, hC, hz, hnd, hdn, hal⟩ := final_weak hK htop hs hd hp hr hf
  -- the documents found
  let seg := fun x : Int × S => docs.filter fun d => decide ((d.terms.length : Int) = x.1 ∧ c.thr x.2 x.1 ≤ shared q d)
  have hCD : C.Perm ((dn.flatMap seg).map (candOf c q)) := by
    rw [← Multiset.coe_eq_coe, hC]
    have : ∀ l : List (Int × S), committed c docs q l = (((l.flatMap seg).map (candOf c q) : List (Candidate S)) : Multiset (Candidate S)) := by
      intro l
      induction l with
      | nil => simp [committed]
      | cons x l ih =>
        rw [List.flatMap_cons, List.map_append, ← Multiset.coe_add, ← ih]
        simp [committed, foundAt, seg]
    exact this dn
  have hDn : (dn.flatMap seg).Nodup := by
    have hdocs : docs.Nodup := hd.ids.imp (fun h e => by rw [e] at h; exact lt_irrefl _ h)
    rw [List.nodup_flatMap]
    refine ⟨fun x _ => hdocs.filter _, ?_⟩
    rw [List.Nodup, List.pairwise_map] at hnd
    refine hnd.imp ?_
    intro x y hxy d h1 h2
    simp only [seg, List.mem_filter, decide_eq_true_eq] at h1 h2
    exact hxy (h1.2.1.symm.trans h2.2.1)
  obtain ⟨rest, r1, r2⟩ := best_split K C
  obtain ⟨D, hD, hDp⟩ : ∃ D : List Doc, best K C ++ rest = D.map (candOf c q) ∧ D.Perm (dn.flatMap seg) := by
    have := List.eq_map_comp_perm (candOf c q)
    have h2 : (best K C ++ rest).Perm ((dn.flatMap seg).map (candOf c q)) := r1.trans hCD
    have h3 := (congrFun (congrFun this (best K C ++ rest)) (dn.flatMap seg)).symm ▸ h2
    obtain ⟨D, h4, h5⟩ := h3
    exact ⟨D, h4, h5⟩
  obtain ⟨ds, rs, hDe, e1, e2⟩ := List.map_eq_append_iff.1 hD.symm
  have hlen := best_length K C
  rw [← e1, List.length_map] at hlen
  have hCl : C.length = ds.length + rs.length := by
    rw [hCD.length_eq, List.length_map, ← hDp.length_eq, hDe, List.length_append]
  have hDnd : (ds ++ rs).Nodup := by rw [← hDe]; exact hDp.nodup_iff.2 hDn
  have hmem : ∀ d, d ∈ ds ++ rs ↔ d ∈ dn.flatMap seg := by intro d; rw [← hDe]; exact hDp.mem_iff
  refine ⟨ds, by rw [hres, e1], (List.nodup_append.1 hDnd).1, by omega, by rw [e1]; exact best_bestFirst K C, ?_, ?_⟩
  · intro d hdm
    obtain ⟨x, hx, h1⟩ := List.mem_flatMap.1 ((hmem d).1 (List.mem_append_left _ hdm))
    simp only [seg, List.mem_filter, decide_eq_true_eq] at h1
    obtain ⟨h1, h2, h3⟩ := h1
    have h4 : 1 ≤ x.1 := one_le_of_mem_all hp (hz.mem_iff.1 (List.mem_map_of_mem hx))
    exact ⟨h1, by omega, x.2, (hdn x hx).2, by rw [h2]; exact h3⟩
  · intro d hdm hsz hnot
    obtain ⟨x, hx, hx1⟩ := List.mem_map.1 (hz.mem_iff.2 hsz)
    by_cases ht : c.thr x.2 d.terms.length ≤ shared q d
    · left
      have hin : d ∈ ds ++ rs := by
        rw [hmem, List.mem_flatMap]
        refine ⟨x, hx, ?_⟩
        simp only [seg, List.mem_filter, decide_eq_true_eq]
        exact ⟨hdm, hx1.symm, by rw [hx1]; exact ht⟩
      have hrs : d ∈ rs := (List.mem_append.1 hin).resolve_left hnot
      have hpos := List.length_pos_of_mem hrs
      refine ⟨by omega, ?_⟩
      intro y hy
      apply r2
      · rw [← e1]; exact List.mem_map_of_mem hy
      · rw [← e2]; exact List.mem_map_of_mem hrs
    · right
      obtain ⟨hx2, hx3⟩ := hdn x hx
      refine ⟨x.2, hx3, ht, ?_⟩
      rcases hal with h | ⟨W, w1, w2, w3⟩
      · left
        rw [h] at hx2
        rcases hx3 with h3 | ⟨h3, _⟩
        · exact h3
        · exact absurd h3 (not_lt.2 hx2)
      · right
        have hcard := Multiset.card_le_card w1
        rw [w2, Multiset.coe_card] at hcard
        refine ⟨by omega, ?_⟩
        intro y hy
        obtain ⟨w, hw, hb⟩ := best_witness w1 w2 (r := candOf c q y) (by rw [← e1]; exact List.mem_map_of_mem hy)
        refine hx2.trans ((w3 w hw).trans ?_)
        rcases betterEq_iff.1 hb with h | ⟨h, _⟩
        · exact h.le
        · exact h.symm.le

end
end Verif
