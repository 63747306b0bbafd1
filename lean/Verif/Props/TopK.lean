import Verif.Proofs.TopK
/-!
Property theorems C25–C27 (pkg/suggest/topk.go).

Reading guide. A history `h : QHist S` describes how a queue was produced by calls of the API; `QHist.run h` executes the
model; `offered h` lists, from the calls alone, every candidate offered since the queue was created or reset;
`best K l` (Verif/Spec/TopK.lean) = sort `l` from best to worst and take the first `K`. Scores: any linear order.
-/
namespace Verif.Props
open Verif Spec

/-- A history of calls producing a queue. -/
inductive QHist (S : Type) where
  /-- `NewTopKQueue(k)` -/
  | new (k : Nat)
  /-- `Add(key, score)` -/
  | add (h : QHist S) (key : Nat) (score : S)
  /-- `GetCandidates()` (result ignored) -/
  | get (h : QHist S)
  /-- `Reset(k)` -/
  | reset (h : QHist S) (k : Nat)
  /-- `Merge(other)` -/
  | merge (h other : QHist S)

namespace QHist
variable {S : Type}

/-- Capacity of the queue. -/
def cap : QHist S → Nat
  | new k => k
  | add h _ _ => h.cap
  | get h => h.cap
  | reset _ k => k
  | merge h _ => h.cap

/-- All capacities are at least 1. -/
def Legal : QHist S → Prop
  | new k => 1 ≤ k
  | add h _ _ => h.Legal
  | get h => h.Legal
  | reset h k => h.Legal ∧ 1 ≤ k
  | merge h o => h.Legal ∧ o.Legal

/-- The same history without the calls of `GetCandidates`. -/
def eraseGets : QHist S → QHist S
  | new k => new k
  | add h p s => add h.eraseGets p s
  | get h => h.eraseGets
  | reset h k => reset h.eraseGets k
  | merge h o => merge h.eraseGets o.eraseGets

variable [LinearOrder S]

/-- The candidates offered to the queue since it was created or reset (a merge offers what the other
queue holds). -/
def offered : QHist S → List (Candidate S)
  | new _ => []
  | add h p s => h.offered ++ [⟨p, s⟩]
  | get h => h.offered
  | reset _ _ => []
  | merge h o => h.offered ++ best o.cap o.offered

/-- Execute the history on the model. -/
def run [Inhabited S] : QHist S → Except Err (TopKQueue S)
  | new k => TopKQueue.new k
  | add h p s => do (← h.run).add p s
  | get h => do return (← h.run).getCandidates.2
  | reset h k => do return (← h.run).reset k
  | merge h o => do (← h.run).merge (← o.run)

end QHist

variable {S : Type} [LinearOrder S] [Inhabited S]

theorem QHist.run_holds (h : QHist S) (hl : h.Legal) :
    ∃ q, h.run = .ok q ∧ q.Holds h.cap (h.offered : Multiset (Candidate S)) := by
  induction h with
  | new k =>
    have hl : 1 ≤ k := hl
    refine ⟨⟨k, fun _ => ⟨0, default⟩, 0⟩, ?_, ?_⟩
    · simp only [run, TopKQueue.new]
      rw [if_neg (by omega)]
    · exact ⟨hl, rfl, fun k' hk0 hk _ => by simp only at hk; omega, ⟨0, by simp [offered, Heap.elems], by simp⟩,
        by simp [offered]⟩
  | add h p s ih =>
    obtain ⟨q, e, hq⟩ := ih hl
    obtain ⟨q', e', hq'⟩ := TopKQueue.add_spec hq p s
    refine ⟨q', by simp [run, e, e', bind, Except.bind], ?_⟩
    have : ((h.offered ++ [⟨p, s⟩] : List (Candidate S)) : Multiset (Candidate S))
        = ⟨p, s⟩ ::ₘ (h.offered : Multiset (Candidate S)) := by
      rw [Multiset.cons_coe, Multiset.coe_eq_coe]; exact List.perm_append_singleton _ _
    simp only [offered, cap, this]; exact hq'
  | get h ih =>
    obtain ⟨q, e, hq⟩ := ih hl
    exact ⟨q.getCandidates.2, by simp [run, e, bind, Except.bind, pure, Except.pure],
      (TopKQueue.getCandidates_spec hq).2⟩
  | reset h k ih =>
    obtain ⟨q, e, hq⟩ := ih hl.1
    refine ⟨q.reset k, by simp [run, e, bind, Except.bind, pure, Except.pure], ?_⟩
    exact ⟨hl.2, rfl, fun k' hk0 hk _ => by simp only [TopKQueue.reset] at hk; omega,
      ⟨0, by simp [offered, Heap.elems, TopKQueue.reset], by simp⟩, by simp [offered, TopKQueue.reset]⟩
  | merge h o ih1 ih2 =>
    obtain ⟨q, e, hq⟩ := ih1 hl.1
    obtain ⟨q2, e2, hq2⟩ := ih2 hl.2
    obtain ⟨q', e', hq'⟩ := TopKQueue.addAll_spec ((List.range q2.len).map q2.mem) hq
    refine ⟨q', by simp [run, e, e2, TopKQueue.merge, e', bind, Except.bind], ?_⟩
    have : ((h.offered ++ best o.cap o.offered : List (Candidate S)) : Multiset (Candidate S))
        = (h.offered : Multiset (Candidate S)) + ((List.range q2.len).map q2.mem : List (Candidate S)) := by
      rw [← Multiset.coe_add]
      congr 1
      rw [← (TopKQueue.getCandidates_spec hq2).1]
      -- the result of GetCandidates is a rearrangement of the memory
      obtain ⟨rest, h1, h2⟩ := hq2.split
      have hsplit := best_unique (K := o.cap) (l := o.offered)
        (R := ((List.range q2.len).map q2.mem).mergeSort Candidate.betterEq) (rest := rest.toList)
        (List.pairwise_mergeSort betterEq_trans betterEq_total _)
        (by
          rw [← Multiset.coe_eq_coe, ← Multiset.coe_add, Multiset.coe_toList, h1,
            Multiset.coe_eq_coe.2 (List.mergeSort_perm _ _), TopKQueue.elems_coe])
        (by
          intro r hr x hx
          apply h2 r _ x (Multiset.mem_toList.1 hx)
          rw [TopKQueue.elems_coe]
          exact Multiset.mem_coe.2 ((List.mergeSort_perm _ _).subset hr))
        (by simpa using hq2.size)
      rw [(TopKQueue.getCandidates_spec hq2).1, ← hsplit, Multiset.coe_eq_coe]
      exact List.mergeSort_perm _ _
    simp only [offered, cap, this]; exact hq'

/-- **C25** After every history of calls the queue holds exactly the `k` best candidates offered, and never more
than `k`; no call panics. -/
theorem C25_keeps_best (h : QHist S) (hl : h.Legal) :
    ∃ q, h.run = .ok q ∧ q.getCandidates.1 = best h.cap h.offered ∧ q.getCandidates.1.length ≤ h.cap := by
  obtain ⟨q, e, hq⟩ := h.run_holds hl
  refine ⟨q, e, (TopKQueue.getCandidates_spec hq).1, ?_⟩
  rw [(TopKQueue.getCandidates_spec hq).1, best_length]; omega

/-- **C25** What the other observers report: full iff `k` candidates were offered, the lowest held score,
and whether a score can still be accepted. -/
theorem C25_observers (h : QHist S) (hl : h.Legal) :
    ∃ q, h.run = .ok q ∧ (q.isFull = true ↔ h.cap ≤ h.offered.length) ∧
      q.getLowestScore = (best h.cap h.offered).getLast?.map Candidate.score ∧
      ∀ s, ∃ b, q.canTakeWithScore s = .ok b ∧
        (b = true ↔ h.offered.length < h.cap ∨ ∃ c, (best h.cap h.offered).getLast? = some c ∧ c.score ≤ s) := by
  obtain ⟨q, e, hq⟩ := h.run_holds hl
  have hsize := hq.size
  rw [Multiset.coe_card] at hsize
  have hpos := hq.pos
  have hfull : q.isFull = true ↔ h.cap ≤ h.offered.length := by
    simp only [TopKQueue.isFull, hq.cap, decide_eq_true_eq]; omega
  have hR := (TopKQueue.getCandidates_spec hq).1
  have hlast : ∀ (hn : 0 < q.len), (best h.cap h.offered).getLast? = some (q.mem 0) := by
    intro hn
    obtain ⟨rest, h1, h2⟩ := hq.split
    have hsplit := best_unique (K := h.cap) (l := h.offered)
      (R := ((List.range q.len).map q.mem).mergeSort Candidate.betterEq) (rest := rest.toList)
      (List.pairwise_mergeSort betterEq_trans betterEq_total _)
      (by
        rw [← Multiset.coe_eq_coe, ← Multiset.coe_add, Multiset.coe_toList, h1,
          Multiset.coe_eq_coe.2 (List.mergeSort_perm _ _), TopKQueue.elems_coe])
      (by
        intro r hr x hx
        apply h2 r _ x (Multiset.mem_toList.1 hx)
        rw [TopKQueue.elems_coe]
        exact Multiset.mem_coe.2 ((List.mergeSort_perm _ _).subset hr))
      (by simpa using hsize)
    have hmem0 : q.mem 0 ∈ best h.cap h.offered := by
      rw [← hsplit]
      apply (List.mergeSort_perm _ _).symm.subset
      exact List.mem_map.2 ⟨0, List.mem_range.2 hn, rfl⟩
    have hworst : ∀ r ∈ best h.cap h.offered, r.betterEq (q.mem 0) = true := by
      intro r hr
      rw [← hsplit] at hr
      apply TopKQueue.root_worst hq
      rw [TopKQueue.elems_coe]
      exact Multiset.mem_coe.2 ((List.mergeSort_perm _ _).subset hr)
    have hs := best_bestFirst h.cap h.offered
    obtain ⟨l, hl⟩ : ∃ l, best h.cap h.offered = l := ⟨_, rfl⟩
    rw [hl] at hmem0 hworst hs ⊢
    obtain ⟨init, last, rfl⟩ : ∃ init last, l = init ++ [last] := by
      rcases List.eq_nil_or_concat l with rfl | ⟨i, a, rfl⟩
      · simp at hmem0
      · exact ⟨i, a, by simp⟩
    have h3 : last.betterEq (q.mem 0) = true := hworst last (by simp)
    have h4 : (q.mem 0).betterEq last = true := by
      rcases List.mem_append.1 hmem0 with h | h
      · exact (List.pairwise_append.1 hs).2.2 _ h _ (by simp)
      · rw [List.mem_singleton.1 h]; exact betterEq_iff.2 (.inr ⟨rfl, Nat.le_refl _⟩)
    rw [betterEq_antisymm h4 h3]
    simp
  refine ⟨q, e, hfull, ?_, ?_⟩
  · unfold TopKQueue.getLowestScore
    by_cases hn : 0 < q.len
    · rw [if_pos hn, hlast hn]; rfl
    · rw [if_neg hn]
      have : (best h.cap h.offered).length = 0 := by rw [best_length]; omega
      rw [List.eq_nil_of_length_eq_zero this]; rfl
  · intro s
    unfold TopKQueue.canTakeWithScore
    by_cases hf : q.isFull = true
    · have hn : 0 < q.len := by have := hfull.1 hf; omega
      have htop : q.top = .ok (q.mem 0) := by simp only [TopKQueue.top]; rw [if_neg (by omega)]
      refine ⟨decide ((q.mem 0).score ≤ s), ?_, ?_⟩
      · simp [hf, htop, bind, Except.bind, pure, Except.pure]
      · rw [hlast hn]
        have : ¬ h.offered.length < h.cap := by have := hfull.1 hf; omega
        simp [this]
    · refine ⟨true, ?_, ?_⟩
      · simp [hf]
      · have : h.offered.length < h.cap := by rw [hfull] at hf; omega
        simp [this]

/-- **C25** the hypothesis `k ≥ 1` is needed: a queue of capacity 0 panics at the first `Add`, and a negative capacity
panics at creation. -/
theorem C25_zero_capacity_panics (key : Nat) (score : S) :
    (QHist.add (QHist.new 0) key score).run = .error .panicIndex ∧
    ∀ k : Int, k < 0 → (TopKQueue.new k : Except Err (TopKQueue S)) = .error .panicMake := by
  constructor
  · simp [QHist.run, TopKQueue.new, TopKQueue.add, TopKQueue.canTakeWithScore, TopKQueue.isFull, TopKQueue.top, bind,
      Except.bind]
  · intro k hk
    simp [TopKQueue.new, hk]

/-- **C26** The result of `GetCandidates` is ordered from best to worst. -/
theorem C26_sorted (h : QHist S) (hl : h.Legal) :
    ∃ q, h.run = .ok q ∧ q.getCandidates.1.Pairwise
      (fun a b => b.score < a.score ∨ (a.score = b.score ∧ a.key ≤ b.key)) := by
  obtain ⟨q, e, h1, _⟩ := C25_keeps_best h hl
  refine ⟨q, e, ?_⟩
  rw [h1]
  exact (best_bestFirst _ _).imp (fun h => betterEq_iff.1 h)

/-- **C26** Reading never changes anything: every history gives the same candidates as the history without its
`GetCandidates` calls, and reading twice gives the same list. -/
theorem C26_non_destructive (h : QHist S) (hl : h.Legal) :
    ∃ q q', h.run = .ok q ∧ h.eraseGets.run = .ok q' ∧ q.getCandidates.1 = q'.getCandidates.1 ∧
      q.getCandidates.2.getCandidates.1 = q.getCandidates.1 := by
  have key : ∀ h : QHist S, h.eraseGets.cap = h.cap ∧ h.eraseGets.offered = h.offered ∧
      (h.Legal → h.eraseGets.Legal) := by
    intro h
    induction h with
    | new k => exact ⟨rfl, rfl, id⟩
    | add h p s ih => exact ⟨ih.1, by simp [QHist.eraseGets, QHist.offered, ih.2.1], ih.2.2⟩
    | get h ih => exact ih
    | reset h k ih => exact ⟨rfl, rfl, fun hl => ⟨ih.2.2 hl.1, hl.2⟩⟩
    | merge h o ih1 ih2 =>
      exact ⟨ih1.1, by simp [QHist.eraseGets, QHist.offered, ih1.2.1, ih2.2.1, ih2.1],
        fun hl => ⟨ih1.2.2 hl.1, ih2.2.2 hl.2⟩⟩
  obtain ⟨q, e, hq⟩ := h.run_holds hl
  obtain ⟨q', e', hq', _⟩ := C25_keeps_best h.eraseGets ((key h).2.2 hl)
  obtain ⟨g1, g2⟩ := TopKQueue.getCandidates_spec hq
  refine ⟨q, q', e, e', ?_, ?_⟩
  · rw [g1, hq', (key h).1, (key h).2.1]
  · rw [(TopKQueue.getCandidates_spec g2).1, g1]

/-- **C27** Merging a queue into another of at most the same capacity gives the `k` best of all candidates offered to either. -/
theorem C27_merge (h o : QHist S) (hl : h.Legal) (ho : o.Legal) (hc : h.cap ≤ o.cap) :
    ∃ q, (QHist.merge h o).run = .ok q ∧ q.getCandidates.1 = best h.cap (h.offered ++ o.offered) := by
  obtain ⟨q, e, h1, _⟩ := C25_keeps_best (QHist.merge h o) ⟨hl, ho⟩
  refine ⟨q, e, ?_⟩
  rw [h1]
  exact best_append_best hc _ _

/-! ### Concrete cases -/

example : best 2 [⟨7, (1 : Nat)⟩, ⟨3, 5⟩, ⟨1, 5⟩, ⟨9, 2⟩] = [⟨1, 5⟩, ⟨3, 5⟩] :=
  (best_unique (rest := [⟨7, 1⟩, ⟨9, 2⟩]) (by decide) (by decide) (by decide) (by decide)).symm

example : (QHist.merge (.add (.get (.add (.new 2) 7 (1 : Nat))) 3 5) (.add (.new 3) 1 5)).Legal := by
  simp [QHist.Legal]

end Verif.Props
