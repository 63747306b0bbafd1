import Verif.Proofs.SuggestInv
/- Final states, progress and termination of the Suggest transition system. -/
namespace Verif
open Spec Heap
open TopKQueue

section
variable {S : Type} [LinearOrder S] [Inhabited S] {Env : Type}
variable {c : SConf S Env} {docs : List Doc} {q : List String}

/-- Each of the `K` best is at least as good as some member of any `K` of the elements. -/
theorem best_witness {K : Nat} {C : List (Candidate S)} {W : Multiset (Candidate S)}
    (h1 : W ≤ (C : Multiset (Candidate S))) (h2 : W.card = K) {r : Candidate S} (hr : r ∈ best K C) :
    ∃ w ∈ W, r.betterEq w = true := by
  obtain ⟨rest, r1, r2⟩ := best_split K C
  have hcard : K ≤ C.length := by
    have := Multiset.card_le_card h1
    simpa [h2] using this
  classical
  by_contra hc
  push Not at hc
  -- every element of W is strictly better than r, hence W ≤ best K C minus r
  have hle : W ≤ ((best K C).erase r : Multiset (Candidate S)) := by
    rw [Multiset.le_iff_count]
    intro y
    by_cases hy : y ∈ W
    · have hyr : y ≠ r := by
        rintro rfl
        exact hc y hy (by have := betterEq_total y y; simpa using this)
      have c1 : Multiset.count y W ≤ Multiset.count y (C : Multiset (Candidate S)) :=
        Multiset.le_iff_count.1 h1 y
      have c2 : y ∉ rest := fun hyr2 => hc y hy (r2 r hr y hyr2)
      have c3 : List.count y C = List.count y (best K C) := by
        rw [← r1.count_eq, List.count_append, List.count_eq_zero.2 c2, add_zero]
      rw [Multiset.coe_count] at c1
      rw [Multiset.coe_count, List.count_erase_of_ne hyr, ← c3]
      exact c1
    · rw [Multiset.count_eq_zero.2 hy]; exact Nat.zero_le _
  have := Multiset.card_le_card hle
  rw [Multiset.coe_card, List.length_erase_of_mem hr, best_length, h2] at this
  have := List.length_pos_of_mem hr
  rw [best_length] at this
  omega

/-- The `K` best of a multiset `A` are the `K` best of `C` if `C` misses only elements that are worse than `K` others. -/
theorem best_of_missing {K : Nat} {C M : List (Candidate S)}
    (h : M = [] ∨ ∃ W : Multiset (Candidate S), W ≤ (C : Multiset (Candidate S)) ∧ W.card = K ∧
      ∀ w ∈ W, ∀ m ∈ M, m.score < w.score) : best K (C ++ M) = best K C := by
  rcases h with rfl | ⟨W, h1, h2, h3⟩
  · simp
  · obtain ⟨rest, r1, r2⟩ := best_split K C
    refine (best_unique (rest := rest ++ M) (best_bestFirst K C) ?_ ?_ ?_).symm
    · rw [← List.append_assoc]; exact r1.append_right M
    · intro r hr x hx
      rcases List.mem_append.1 hx with hx | hx
      · exact r2 r hr x hx
      · obtain ⟨w, hw1, hw2⟩ := best_witness h1 h2 hr
        have := h3 w hw1 x hx
        refine betterEq_trans _ _ _ hw2 (betterEq_iff.2 (.inl this))
    · rw [best_length]
      have := Multiset.card_le_card h1
      simp only [Multiset.coe_card, h2] at this
      simp only [List.length_append]
      omega

omit [LinearOrder S] [Inhabited S] in
theorem List.flatMap_perm_of_partition {α β : Type} [DecidableEq β] (f : α → β) (l : List α) :
    ∀ (Z : List β), Z.Nodup → (Z.flatMap fun b => l.filter fun d => decide (f d = b)).Perm
      (l.filter fun d => decide (f d ∈ Z))
  | [], _ => by simp
  | z :: Z, h => by
    rw [List.nodup_cons] at h
    rw [List.flatMap_cons]
    refine ((List.flatMap_perm_of_partition f l Z h.2).append_left _).trans ?_
    have : ((l.filter fun d => decide (f d = z)) ++ (l.filter fun d => decide (f d ∈ Z))).Perm
        (l.filter fun d => decide (f d ∈ z :: Z)) := by
      induction l with
      | nil => simp
      | cons x l ih =>
        by_cases hx : f x = z
        · have hz : f x ∉ Z := hx ▸ h.1
          have e1 : decide (f x ∈ z :: Z) = true := by simp [hx]
          have e2 : decide (f x ∈ Z) = false := by simp [hz]
          have e3 : decide (f x = z) = true := by simp [hx]
          rw [List.filter_cons, List.filter_cons, List.filter_cons, e1, e2, e3]
          simpa using ih
        · by_cases hz : f x ∈ Z
          · have e1 : decide (f x ∈ z :: Z) = true := by simp [hz]
            have e2 : decide (f x ∈ Z) = true := by simp [hz]
            have e3 : decide (f x = z) = false := by simp [hx]
            rw [List.filter_cons, List.filter_cons, List.filter_cons, e1, e2, e3]
            simp only [if_true, Bool.false_eq_true, if_false]
            exact List.perm_middle.trans (ih.cons x)
          · have e1 : decide (f x ∈ z :: Z) = false := by simp [hz, hx]
            have e2 : decide (f x ∈ Z) = false := by simp [hz]
            have e3 : decide (f x = z) = false := by simp [hx]
            rw [List.filter_cons, List.filter_cons, List.filter_cons, e1, e2, e3]
            simpa using ih
    exact this

section
variable {K : Nat} (hK : 0 < K) (htop : c.topK = K) (hs : SegmentsOk c.indices docs q)
  (hd : DocsOk docs q c.sizeA) {acc : Nat → Nat → Prop} [DecidableRel acc] (hl : MetricLaws c acc)

/-- All qualifying documents with their scores. -/
def answer (c : SConf S Env) (docs : List Doc) (q : List String) (acc : Nat → Nat → Prop) [DecidableRel acc] :
    List (Candidate S) :=
  (docs.filter fun d => decide (acc d.terms.length (shared q d))).map (candOf c q)

omit [DecidableRel acc] in
include hK htop hs hd in
/-- What is known in every final state, without any assumption about rounding. -/
theorem final_weak (hp : PosLaws c) {s : SState S} (hr : c.Reachable s) (hf : s.final) :
    ∃ (dn : List (Int × S)) (C : List (Candidate S)), s.result = .ok (best K C) ∧
      (C : Multiset (Candidate S)) = committed c docs q dn ∧ (dn.map Prod.fst).Perm (allSizes c) ∧ (dn.map Prod.fst).Nodup ∧
      (∀ x ∈ dn, x.2 ≤ s.alpha ∧ Bound c x.2) ∧
      (s.alpha = c.similarity ∨ ∃ W ≤ (C : Multiset (Candidate S)), W.card = K ∧ ∀ w ∈ W, s.alpha ≤ w.score) := by
  have hi := inv_reachable hK htop hs hd hp hr
  obtain ⟨dn, hz, hdn, hq, hal⟩ := hi.hist
  obtain ⟨f1, f2, f3⟩ := hf
  have hne : s.workers ≠ [] ∨ s.workers = [] := by by_cases h : s.workers = [] <;> simp [h]
  -- no errors
  have hres : s.result = .ok s.queue.getCandidates.1 := by
    unfold SState.result
    split
    · rename_i e es heq
      have hm : e ∈ s.workers.filterMap Worker.err? := by
        rw [heq]; simp
      obtain ⟨w, hw, hwe⟩ := List.mem_filterMap.1 hm
      obtain ⟨e', rfl⟩ := f3 w hw
      have := hi.wk _ hw
      simp only [WOk] at this
      rw [this] at hwe
      simp [Worker.err?] at hwe
    · rfl
  rw [hres]
  -- everything has been processed
  have hheld : heldAll s.workers = 0 := by
    unfold heldAll
    have : ∀ ws : List (Worker S), (∀ w ∈ ws, ∃ e, w = .done e) → (ws.map Worker.held).sum = 0 := by
      intro ws
      induction ws with
      | nil => simp
      | cons w ws ih =>
        intro h
        obtain ⟨e, rfl⟩ := h w List.mem_cons_self
        rw [List.map_cons, List.sum_cons, ih (fun w hw => h w (List.mem_cons_of_mem _ hw))]
        rfl
    exact this _ f3
  have hchan : s.chan = [] := by
    rcases hne with hne | hne
    · obtain ⟨w, hw⟩ := List.exists_mem_of_ne_nil _ hne
      obtain ⟨e, rfl⟩ := f3 w hw
      exact (hi.fin _ hw e rfl).2
    · have h1 := hi.nworkers
      have h2 := hi.chanle
      rw [hne] at h1
      simp only [List.length_nil] at h1
      exact List.eq_nil_of_length_eq_zero (by omega)
  rw [hheld, hchan, hi.closed f2] at hz
  simp only [Multiset.coe_nil, zero_add, Multiset.coe_eq_coe] at hz
  have hnd : (dn.map Prod.fst).Nodup := hz.nodup_iff.2 (nodup_sendLoop (by omega))
  obtain ⟨C, hC⟩ : ∃ C : List (Candidate S), (C : Multiset (Candidate S)) = committed c docs q dn :=
    Quot.exists_rep _
  rw [← hC] at hq hal
  exact ⟨dn, C, by rw [(getCandidates_spec hq).1], hC, hz, hnd, hdn, hal⟩

include hK htop hs hd hl in
/-- In every final state the result is the list of the `K` best qualifying documents. -/
theorem final_result {s : SState S} (hr : c.Reachable s) (hf : s.final) :
    s.result = .ok (best K (answer c docs q acc)) := by
  obtain ⟨dn, C, hres, hC, hz, hnd, hdn, hal⟩ := final_weak hK htop hs hd hl.toPosLaws hr hf
  rw [hres]
  have hfacts : ∀ d ∈ docs, 1 ≤ d.terms.length → d.terms.length < c.indices.size ∧ shared q d ≤ d.terms.length ∧
      shared q d ≤ c.sizeA := fun d hdm h1 =>
    ⟨hs.card d hdm (by intro e; rw [e] at h1; simp at h1), shared_le_terms hd.query, by rw [← hd.len]; exact shared_le_query q d⟩
  have hb1 : ∀ x ∈ dn, 1 ≤ x.1 := fun x hx =>
    one_le_of_mem_all hl.toPosLaws (hz.mem_iff.1 (List.mem_map_of_mem hx))
  -- what was missed
  let A := docs.filter fun d => decide (acc d.terms.length (shared q d))
  let allAt := fun b : Int => (A.filter fun d => decide ((d.terms.length : Int) = b)).map (candOf c q)
  let missAt := fun x : Int × S => ((A.filter fun d => decide ((d.terms.length : Int) = x.1)).filter
    fun d => decide (¬ c.thr x.2 x.1 ≤ shared q d)).map (candOf c q)
  have hsplit1 : ∀ x ∈ dn, foundAt c docs q x.1 x.2 + (missAt x : Multiset (Candidate S)) = (allAt x.1 : Multiset (Candidate S)) := by
    intro x hx
    have h1 := hb1 x hx
    have e : (docs.filter fun d => decide ((d.terms.length : Int) = x.1 ∧ c.thr x.2 x.1 ≤ shared q d))
        = (A.filter fun d => decide ((d.terms.length : Int) = x.1)).filter fun d => decide (c.thr x.2 x.1 ≤ shared q d) := by
      simp only [A, List.filter_filter]
      apply List.filter_congr
      intro d hdm
      rw [Bool.eq_iff_iff]
      simp only [decide_eq_true_eq, Bool.and_eq_true]
      constructor
      · rintro ⟨h2, h3⟩
        have h4 : 1 ≤ d.terms.length := by omega
        obtain ⟨g1, g2, g3⟩ := hfacts d hdm h4
        rw [← h2] at h3
        have hmem := hz.mem_iff.1 (List.mem_map_of_mem (f := Prod.fst) hx)
        rw [allSizes, mem_sendLoop, ← h2] at hmem
        exact ⟨h2 ▸ h3, h2, hl.sound x.2 (hdn x hx).2 _ _ h4 g1 g2 g3 h3 hmem⟩
      · rintro ⟨h2, h3, _⟩
        exact ⟨h3, h2⟩
    unfold foundAt
    rw [e]
    simp only [missAt, allAt, Multiset.coe_add, ← List.map_append, Multiset.coe_eq_coe]
    apply List.Perm.map
    have := List.filter_append_perm (fun d => decide (c.thr x.2 x.1 ≤ shared q d))
      (A.filter fun d => decide ((d.terms.length : Int) = x.1))
    have e2 : ((A.filter fun d => decide ((d.terms.length : Int) = x.1)).filter
        fun d => decide (¬ c.thr x.2 x.1 ≤ shared q d)) = (A.filter fun d => decide ((d.terms.length : Int) = x.1)).filter
        fun d => !decide (c.thr x.2 x.1 ≤ shared q d) :=
      List.filter_congr (fun d _ => decide_not)
    rw [e2]
    exact this
  have hsplit : committed c docs q dn + ((dn.flatMap missAt : List (Candidate S)) : Multiset (Candidate S))
      = ((dn.flatMap fun x => allAt x.1 : List (Candidate S)) : Multiset (Candidate S)) := by
    have : ∀ l : List (Int × S), (∀ x ∈ l, x ∈ dn) →
        committed c docs q l + ((l.flatMap missAt : List (Candidate S)) : Multiset (Candidate S))
        = ((l.flatMap fun x => allAt x.1 : List (Candidate S)) : Multiset (Candidate S)) := by
      intro l
      induction l with
      | nil => simp [committed]
      | cons x l ih =>
        intro h
        have h1 := hsplit1 x (h x List.mem_cons_self)
        have h2 := ih (fun y hy => h y (List.mem_cons_of_mem _ hy))
        rw [List.flatMap_cons, List.flatMap_cons, ← Multiset.coe_add, ← Multiset.coe_add, ← h1, ← h2]
        simp only [committed, List.map_cons, List.sum_cons]
        abel
    exact this dn (fun _ h => h)
  -- all qualifying documents lie in a searched segment
  have hall : (dn.flatMap fun x => allAt x.1).Perm (answer c docs q acc) := by
    have e1 : (dn.flatMap fun x => allAt x.1)
        = ((dn.map Prod.fst).flatMap fun b => A.filter fun d => decide ((d.terms.length : Int) = b)).map (candOf c q) := by
      rw [List.flatMap_map, List.map_flatMap]
    rw [e1]
    apply List.Perm.map
    refine (List.flatMap_perm_of_partition (fun d : Doc => (d.terms.length : Int)) A _ hnd).trans (List.Perm.of_eq ?_)
    rw [List.filter_eq_self]
    intro d hdA
    obtain ⟨h1, h2⟩ := List.mem_filter.1 hdA
    simp only [decide_eq_true_eq] at h2 ⊢
    rw [hz.mem_iff, allSizes, mem_sendLoop]
    have h3 := hl.acc_pos _ _ h2
    obtain ⟨g1, g2, g3⟩ := hfacts d h1 h3
    obtain ⟨g4, g5⟩ := hl.bounds _ _ h3 g1 g2 g3 h2
    unfold SConf.bMin SConf.bMax
    split <;> omega
  -- the missed ones are worse than K others
  have hmissing : (dn.flatMap missAt) = [] ∨ ∃ W : Multiset (Candidate S), W ≤ (C : Multiset (Candidate S)) ∧
      W.card = K ∧ ∀ w ∈ W, ∀ m ∈ dn.flatMap missAt, m.score < w.score := by
    by_cases hm : dn.flatMap missAt = []
    · exact .inl hm
    · right
      have key : ∀ m ∈ dn.flatMap missAt, m.score < s.alpha ∧ c.similarity < s.alpha := by
        intro m hmm
        obtain ⟨x, hx, hmx⟩ := List.mem_flatMap.1 hmm
        simp only [missAt, A, List.mem_map, List.mem_filter, decide_eq_true_eq] at hmx
        obtain ⟨d, ⟨⟨⟨d1, d2⟩, d3⟩, d4⟩, rfl⟩ := hmx
        have h3 := hl.acc_pos _ _ d2
        obtain ⟨g1, g2, g3⟩ := hfacts d d1 h3
        obtain ⟨x1, x2⟩ := hdn x hx
        rw [← d3] at d4
        have hlt : c.score d.terms.length (shared q d) < x.2 := by
          by_contra hcon
          exact d4 (hl.complete x.2 x2 _ _ h3 g1 g2 g3 d2 (not_lt.1 hcon))
        have hlow := hl.lower _ _ h3 g1 g2 g3 d2
        exact ⟨lt_of_lt_of_le hlt x1, lt_of_le_of_lt hlow (lt_of_lt_of_le hlt x1)⟩
      obtain ⟨m0, hm0⟩ := List.exists_mem_of_ne_nil _ hm
      rcases hal with h | ⟨W, w1, w2, w3⟩
      · have := (key m0 hm0).2
        rw [h] at this
        exact absurd this (lt_irrefl _)
      · exact ⟨W, w1, w2, fun w hw m hmm => lt_of_lt_of_le (key m hmm).1 (w3 w hw)⟩
  rw [← hC] at hsplit
  rw [← best_of_missing hmissing]
  congr 1
  apply best_perm
  refine List.Perm.trans ?_ hall
  rw [← Multiset.coe_eq_coe, ← hsplit, Multiset.coe_add]

/-! ### Progress and termination -/

/-- Remaining work of a worker. -/
def Worker.weight : Worker S → Nat
  | .idle => 1
  | .got _ => 7
  | .loaded _ _ => 6
  | .found _ _ => 5
  | .merged => 4
  | .raised => 3
  | .done _ => 0

/-- Remaining work. -/
def SState.weight (s : SState S) : Nat :=
  9 * s.toSend.length + 8 * s.chan.length + (if s.closed then 0 else 1) + (s.workers.map Worker.weight).sum +
    (if s.panicked = none then 1 else 0)

omit [LinearOrder S] [Inhabited S] in
theorem weight_set : ∀ {ws : List (Worker S)} {i : Nat} {w : Worker S}, ws[i]? = some w →
    ∃ R, (ws.map Worker.weight).sum = w.weight + R ∧ ∀ w', ((ws.set i w').map Worker.weight).sum = w'.weight + R
  | [], i, w, h => by simp at h
  | x :: ws, 0, w, h => by
    simp only [List.getElem?_cons_zero, Option.some.injEq] at h
    subst h
    exact ⟨(ws.map Worker.weight).sum, by simp, fun w' => by simp⟩
  | x :: ws, i + 1, w, h => by
    simp only [List.getElem?_cons_succ] at h
    obtain ⟨R, h1, h2⟩ := weight_set h
    refine ⟨x.weight + R, ?_, fun w' => ?_⟩
    · rw [List.map_cons, List.sum_cons, h1]; omega
    · rw [List.set_cons_succ, List.map_cons, List.sum_cons, h2]; omega

/-- Every transition decreases the remaining work. -/
theorem weight_step {s s' : SState S} (h : c.Step s s') : s'.weight < s.weight := by
  cases h with
  | send hnp hsend hcap => simp only [SState.weight, hsend, List.length_append, List.length_cons, List.length_nil]; omega
  | handoff hnp hsend hch hwi =>
    obtain ⟨R, r1, r2⟩ := weight_set hwi
    simp only [SState.weight, hsend, r1, r2, List.length_cons, Worker.weight]; omega
  | close hnp hsend hcl =>
    simp only [SState.weight, hcl]
    simp
  | recv hnp hch hwi =>
    obtain ⟨R, r1, r2⟩ := weight_set hwi
    simp only [SState.weight, hch, r1, r2, List.length_cons, Worker.weight]; omega
  | exit hnp hch hcl hwi =>
    obtain ⟨R, r1, r2⟩ := weight_set hwi
    simp only [SState.weight, r1, r2, Worker.weight]; omega
  | load hnp hwi =>
    obtain ⟨R, r1, r2⟩ := weight_set hwi
    simp only [SState.weight, r1, r2, Worker.weight]; omega
  | skip hnp hwi hsk =>
    obtain ⟨R, r1, r2⟩ := weight_set hwi
    simp only [SState.weight, r1, r2, Worker.weight]; omega
  | search env hnp hwi hsk hget hnew hres =>
    obtain ⟨R, r1, r2⟩ := weight_set hwi
    simp only [SState.weight, r1, r2, Worker.weight]; omega
  | searchErr env hnp hwi hsk hget hnew hres hp =>
    obtain ⟨R, r1, r2⟩ := weight_set hwi
    simp only [SState.weight, r1, r2, Worker.weight]; omega
  | searchPanic env hnp hwi hsk hget hnew hres hp =>
    simp only [SState.weight, hnp]; simp
  | commit hnp hwi hlk hmerge =>
    obtain ⟨R, r1, r2⟩ := weight_set hwi
    simp only [SState.weight, r1, r2, Worker.weight]; omega
  | commitPanic hnp hwi hlk hmerge =>
    simp only [SState.weight, hnp]; simp
  | raise hnp hwi =>
    obtain ⟨R, r1, r2⟩ := weight_set hwi
    simp only [SState.weight, r1, r2, Worker.weight]; omega
  | unlock hnp hwi =>
    obtain ⟨R, r1, r2⟩ := weight_set hwi
    simp only [SState.weight, r1, r2, Worker.weight]; omega

omit [DecidableRel acc] in
include hK htop hs hd in
/-- A reachable state is final or has a successor, provided the channel has room for something. -/
theorem progress (hl : PosLaws c) [Nonempty Env] (hcap : c.bMin ≤ c.bMax) {s : SState S} (hr : c.Reachable s) :
    s.final ∨ ∃ s', c.Step s s' := by
  have hi := inv_reachable hK htop hs hd hl hr
  have np := hi.np
  have hc1 : 1 ≤ s.cap := by rw [hi.cap]; omega
  by_cases hall : ∀ w ∈ s.workers, w = .idle ∨ ∃ e, w = .done e
  · by_cases hidle : Worker.idle ∈ s.workers
    · right
      obtain ⟨i, hi'⟩ := List.mem_iff_getElem?.1 hidle
      cases hch : s.chan with
      | cons b rest => exact ⟨_, .recv np hch hi'⟩
      | nil =>
        by_cases hcl : s.closed = true
        · exact ⟨_, .exit np hch hcl hi'⟩
        · cases hsend : s.toSend with
          | nil => exact ⟨_, .close np hsend (by simpa using hcl)⟩
          | cons b rest => exact ⟨_, .send np hsend (by rw [hch]; exact hc1)⟩
    · left
      have hdone : ∀ w ∈ s.workers, ∃ e, w = .done e := by
        intro w hw
        rcases hall w hw with rfl | h
        · exact absurd hw hidle
        · exact h
      refine ⟨np, ?_, hdone⟩
      have hlen : s.workers ≠ [] := by
        intro h
        have := hi.nworkers
        rw [h] at this
        simp only [List.length_nil] at this
        omega
      obtain ⟨w, hw⟩ := List.exists_mem_of_ne_nil _ hlen
      obtain ⟨e, he⟩ := hdone w hw
      exact (hi.fin w hw e he).1
  · right
    push Not at hall
    obtain ⟨w, hw, h1, h2⟩ := hall
    obtain ⟨i, hi'⟩ := List.mem_iff_getElem?.1 hw
    cases w with
    | idle => exact absurd rfl h1
    | done e => exact absurd rfl (h2 e)
    | got b => exact ⟨_, .load np hi'⟩
    | loaded b a =>
      by_cases hsk : c.skips a b
      · exact ⟨_, .skip np hi' hsk⟩
      · have hget : ∃ f, c.indices.get b = some f := by
          cases hg : c.indices.get b with
          | none => exact absurd (.inr (.inr (.inr hg))) hsk
          | some f => exact ⟨f, rfl⟩
        obtain ⟨f, hf⟩ := hget
        obtain ⟨q0, e0⟩ := new_ok (S := S) K
        rw [← htop] at e0
        obtain ⟨R, r1, r2⟩ := heldAll_set hi'
        obtain ⟨w1, w2⟩ := hi.wk _ hw
        have hb1 : 1 ≤ b := by
          obtain ⟨dn, hz, _⟩ := hi.hist
          apply one_le_of_mem_all hl
          have : b ∈ (allSizes c : Multiset Int) := by rw [← hz, r1]; simp [Worker.held]
          simpa using this
        obtain ⟨env⟩ := ‹Nonempty Env›
        obtain ⟨q', e1, _⟩ := search_found hK htop hs hd hl w2 hb1 hf e0 env
        exact ⟨_, .search env np hi' hsk hf e0 e1⟩
    | found b qq =>
      by_cases hlk : s.locked = true
      · obtain ⟨j, hj | hj⟩ := hi.lock hlk
        · exact ⟨_, .raise np hj⟩
        · exact ⟨_, .unlock np hj⟩
      · cases hm : s.queue.merge qq with
        | ok g => exact ⟨_, .commit np hi' (by simpa using hlk) hm⟩
        | error e => exact ⟨_, .commitPanic np hi' (by simpa using hlk) hm⟩
    | merged => exact ⟨_, .raise np hi'⟩
    | raised => exact ⟨_, .unlock np hi'⟩

/-- No infinite execution. -/
theorem no_infinite_run (f : Nat → SState S) : ¬ ∀ n, c.Step (f n) (f (n + 1)) := by
  intro h
  have : ∀ n, (f n).weight + n ≤ (f 0).weight := by
    intro n
    induction n with
    | zero => simp
    | succ n ih => have := weight_step (h n); omega
  have := this ((f 0).weight + 1)
  omega

omit [DecidableRel acc] in
include hK htop hs hd in
/-- The call ends under every schedule, provided the channel has room for something. -/
theorem call_terminates (hl : PosLaws c) [Nonempty Env] (hz : c.sizeA ≠ 0) (hcap : c.bMin ≤ c.bMax) :
    ¬ SuggestPanics c ∧ ¬ SuggestBlocks c ∧ (∀ f : Nat → SState S, ¬ ∀ i, c.Step (f i) (f (i + 1))) ∧
      ∃ r, SuggestReturns c r := by
  have hinv : ∀ s, c.Reachable s → Inv c docs q K s := fun s hre => inv_reachable hK htop hs hd hl hre
  obtain ⟨s0, hs0⟩ : ∃ s0, c.start = .ok s0 := by
    unfold SConf.start
    rw [if_neg (by omega)]
    obtain ⟨q0, e0⟩ := TopKQueue.new_ok (S := S) K
    have : TopKQueue.new c.topK = .ok q0 := by rw [htop]; exact e0
    rw [this]
    exact ⟨_, rfl⟩
  have hprog : ∀ s, c.Reachable s → s.final ∨ ∃ s', c.Step s s' := fun s hre =>
    progress (Env := Env) hK htop hs hd hl hcap hre
  refine ⟨?_, ?_, no_infinite_run, ?_⟩
  · rintro (⟨_, h⟩ | ⟨_, hre, h⟩)
    · rw [hs0] at h; simp at h
    · exact h (hinv _ hre).np
  · rintro ⟨_, s, hre, _, hnf, hns⟩
    rcases hprog s hre with h | ⟨s', h⟩
    · exact hnf h
    · exact hns s' h
  · have : ∀ (w : Nat) s, c.Reachable s → s.weight ≤ w → ∃ s', c.Reachable s' ∧ s'.final := by
      intro w
      induction w with
      | zero =>
        intro s hre hw
        rcases hprog s hre with h | ⟨s', h⟩
        · exact ⟨s, hre, h⟩
        · have := weight_step h; omega
      | succ w ih =>
        intro s hre hw
        rcases hprog s hre with h | ⟨s', h⟩
        · exact ⟨s, hre, h⟩
        · have := weight_step h
          exact ih s' (hre.step h) (by omega)
    obtain ⟨s', h2, h3⟩ := this _ s0 (.start hs0) le_rfl
    exact ⟨_, .run hz h2 h3⟩

end
end
end Verif
