import Verif.Model.Suggest
import Verif.Proofs.TopK
import Verif.Props.Merger
import Verif.Spec.Index
/- Proofs about the Suggest transition system. -/
namespace Verif
open Spec Heap
open Verif.Props (packed)

/-! ### The producer loop -/

theorem mem_sendLoop {bMin bMax x : Int} : ∀ {i j : Int}, x ∈ sendLoop bMin bMax i j ↔
    (bMin ≤ x ∧ x ≤ i) ∨ (j ≤ x ∧ x ≤ bMax) := by
  intro i j
  induction i, j using sendLoop.induct bMin bMax with
  | case1 i j h ih =>
    rw [sendLoop, if_pos h]
    simp only [List.mem_append, ih]
    split_ifs <;> simp <;> omega
  | case2 i j h =>
    rw [sendLoop, if_neg h]
    simp; omega

theorem nodup_sendLoop {bMin bMax : Int} : ∀ {i j : Int}, i < j → (sendLoop bMin bMax i j).Nodup := by
  intro i j
  induction i, j using sendLoop.induct bMin bMax with
  | case1 i j h ih =>
    intro hij
    rw [sendLoop, if_pos h, List.nodup_append, List.nodup_append]
    refine ⟨⟨by split_ifs <;> simp, by split_ifs <;> simp, ?_⟩, ih (by omega), ?_⟩
    · intro a ha b hb
      split_ifs at ha <;> split_ifs at hb <;> simp at ha hb
      omega
    · intro a ha b hb
      rw [mem_sendLoop] at hb
      simp only [List.mem_append] at ha
      split_ifs at ha <;> simp at ha <;> omega
  | case2 i j h => intro _; rw [sendLoop, if_neg h]; simp

section
variable {S : Type} [LinearOrder S]

namespace TopKQueue

/-- What a full collector has dropped does not matter to the queue it is merged into. -/
theorem Holds.absorb {g : TopKQueue S} {K : Nat} {C E rest : Multiset (Candidate S)} (h : g.Holds K (C + E))
    (hcard : E.card = min K (E + rest).card) (hb : ∀ r ∈ E, ∀ x ∈ rest, r.betterEq x = true) :
    g.Holds K (C + (E + rest)) := by
  classical
  obtain ⟨R, h1, h2⟩ := h.split
  have hsz := h.size
  refine ⟨h.pos, h.cap, h.heap, ⟨R + rest, by rw [← add_assoc, ← add_assoc, h1], ?_⟩, ?_⟩
  · intro r hr x hx
    rcases Multiset.mem_add.1 hx with hx | hx
    · exact h2 r hr x hx
    · have hE : E.card = K := by
        have : 0 < rest.card := Multiset.card_pos_iff_exists_mem.2 ⟨x, hx⟩
        rw [Multiset.card_add] at hcard; omega
      have hg : (elems g.mem g.len).card = K := by
        rw [elems_card, hsz, Multiset.card_add]; omega
      by_cases hle : E ≤ elems g.mem g.len
      · have : E = elems g.mem g.len := Multiset.eq_of_le_of_card_le hle (by omega)
        exact hb r (this ▸ hr) x hx
      · rw [Multiset.le_iff_count] at hle
        push Not at hle
        obtain ⟨e, he⟩ := hle
        have heE : e ∈ E := Multiset.count_pos.1 (by omega)
        have heR : e ∈ R := by
          have := congrArg (Multiset.count e) h1
          rw [Multiset.count_add, Multiset.count_add] at this
          exact Multiset.count_pos.1 (by omega)
        exact betterEq_trans _ _ _ (h2 r hr e heR) (hb e heE x hx)
  · rw [Multiset.card_add] at hcard hsz ⊢
    rw [Multiset.card_add]
    omega

theorem merge_spec {g q : TopKQueue S} {K : Nat} {C D : Multiset (Candidate S)} (h : g.Holds K C)
    (hq : q.Holds K D) : ∃ g', g.merge q = .ok g' ∧ g'.Holds K (C + D) := by
  obtain ⟨g', e, h'⟩ := addAll_spec ((List.range q.len).map q.mem) h
  refine ⟨g', e, ?_⟩
  obtain ⟨rest, h1, h2⟩ := hq.split
  rw [h1]
  refine Holds.absorb (by rw [elems_coe]; exact h') ?_ h2
  rw [← h1, elems_card, hq.size]

theorem new_holds [Inhabited S] {K : Nat} (hK : 0 < K) {q : TopKQueue S} (h : TopKQueue.new (K : Int) = .ok q) :
    q.Holds K 0 := by
  simp only [TopKQueue.new] at h
  rw [if_neg (by omega)] at h
  cases h
  exact ⟨hK, rfl, fun k _ hk _ => by simp at hk, ⟨0, by simp [elems], by simp⟩, by simp⟩

theorem new_ok [Inhabited S] (K : Nat) : ∃ q : TopKQueue S, TopKQueue.new (K : Int) = .ok q := by
  unfold TopKQueue.new
  rw [if_neg (by omega)]
  exact ⟨_, rfl⟩

/-- The manager's lowest score, when there is one. -/
theorem managerLowest_spec {q : TopKQueue S} {K : Nat} {C : Multiset (Candidate S)} (h : q.Holds K C) {l : S}
    (hl : managerLowest q = some l) :
    ∃ W ≤ C, W.card = K ∧ (∀ w ∈ W, l ≤ w.score) ∧ ∃ w ∈ W, w.score = l := by
  unfold managerLowest at hl
  split at hl
  · simp at hl
  · rename_i hf
    simp only [isFull, Bool.not_eq_true', decide_eq_false_iff_not, not_not, h.cap] at hf
    have hlen : q.len = K := by omega
    have hpos := h.pos
    simp only [getLowestScore] at hl
    rw [if_pos (by omega)] at hl
    obtain ⟨rest, h1, h2⟩ := h.split
    refine ⟨elems q.mem q.len, by rw [h1]; exact Multiset.le_add_right _ _, by rw [elems_card, hlen], ?_, q.mem 0, ?_, by simpa using hl⟩
    · intro w hw
      have := root_worst h w hw
      rw [betterEq_iff] at this
      simp only [Option.some.injEq] at hl
      rw [← hl]
      rcases this with h3 | ⟨h3, _⟩
      · exact h3.le
      · exact h3.ge
    · exact mem_elems.2 ⟨0, by omega, rfl⟩

end TopKQueue

open TopKQueue

/-- The collector during a search. -/
theorem feed_fuzzy {K : Nat} (score : Nat → S) : ∀ (out : List (Nat × Nat)) {q : TopKQueue S}
    {C : Multiset (Candidate S)}, q.Holds K C → (∀ x ∈ out, x.1 < 2 ^ 32 ∧ x.2 < 2 ^ 32) →
    ∃ q', feed (fuzzyCollect score) q (packed out) = (q', none) ∧
      q'.Holds K (C + ((out.map fun x => (⟨x.1, score x.2⟩ : Candidate S)) : Multiset (Candidate S)))
  | [], q, C, h, _ => ⟨q, rfl, by simpa using h⟩
  | x :: out, q, C, h, hx => by
    obtain ⟨hp, ho⟩ := hx x List.mem_cons_self
    obtain ⟨q1, e1, h1⟩ := add_spec h x.1 (score x.2)
    obtain ⟨q2, e2, h2⟩ := feed_fuzzy score out h1 (fun y hy => hx y (List.mem_cons_of_mem _ hy))
    refine ⟨q2, ?_, ?_⟩
    · simp only [packed, List.map_cons, feed, fuzzyCollect, MergeCandidate.position_new hp ho,
        MergeCandidate.overlap_new hp ho, e1]
      exact e2
    · have : C + (((x :: out).map fun x => (⟨x.1, score x.2⟩ : Candidate S)) : Multiset (Candidate S))
          = (⟨x.1, score x.2⟩ ::ₘ C) + ((out.map fun x => (⟨x.1, score x.2⟩ : Candidate S)) : Multiset (Candidate S)) := by
        rw [List.map_cons, ← Multiset.cons_coe, Multiset.add_cons, Multiset.cons_add]
      rw [this]; exact h2

end
end Verif
