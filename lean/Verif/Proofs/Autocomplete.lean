import Verif.Model.Autocomplete
import Verif.Proofs.SuggestFinal
/- Proofs about the Autocomplete transition system. -/
namespace Verif
open Spec Heap TopKQueue
open Verif.Props (packed)

/-- The first-k collector keeps the first `K` items. -/
theorem feed_firstK {K : Nat} : ∀ (xs items : List MergeCandidate), items.length ≤ K →
    feed (firstKCollect K) items xs = (items ++ xs.take (K - items.length), none)
  | [], items, _ => by simp [feed]
  | x :: xs, items, h => by
    by_cases he : items.length = K
    · have e : firstKCollect (K : Int) items x = (items, .terminated) := by
        unfold firstKCollect; rw [if_pos (by omega)]
      simp only [feed, e]
      simp [he]
    · have e : firstKCollect (K : Int) items x = (items ++ [x], .ok) := by
        unfold firstKCollect; rw [if_neg (by omega)]
      simp only [feed, e]
      rw [feed_firstK xs (items ++ [x]) (by simp; omega)]
      obtain ⟨m, hm⟩ : ∃ m, K - items.length = m + 1 := ⟨K - items.length - 1, by omega⟩
      have : K - (items ++ [x]).length = m := by simp; omega
      rw [this, hm]
      simp

section
variable {κ S Env : Type} [LinearOrder S] [Inhabited S] (c : AConf κ S Env) (m : Nat → Multiset (Candidate S))
  (coll : Nat → κ → Prop) (QOk : TopKQueue S → Multiset (Candidate S) → Prop)

/-- What the collector has to do: after the search of the goroutine for `b` it satisfies `coll b`, and handing it to the
manager offers the candidates `m b` to the queue; `QOk g C`: the queue after everything in `C` was offered. -/
structure CollectorOk (K : Nat) : Prop where
  skip : ∀ {b : Nat}, c.indices.get b = none → m b = 0
  init : ∀ {g}, TopKQueue.new c.limit = .ok g → QOk g 0
  search : ∀ {b : Nat} {f}, c.indices.get b = some f → ∀ env, ∃ k, f env c.collect c.termsLen c.create = (k, none) ∧ coll b k
  commit : ∀ {g C}, QOk g C → ∀ (b : Nat) k, coll b k → ∃ g', c.merge g k = .ok g' ∧ QOk g' (C + m b)
  final : ∀ {g} {C : List (Candidate S)}, QOk g C → g.getCandidates.1 = best K C

def AWorker.held : AWorker κ → Multiset Nat
  | .started b => {b}
  | .found b _ => {b}
  | .done _ => 0

def heldA (ws : List (AWorker κ)) : Multiset Nat := (ws.map AWorker.held).sum

theorem heldA_set : ∀ {ws : List (AWorker κ)} {i : Nat} {w : AWorker κ}, ws[i]? = some w →
    ∃ R, heldA ws = w.held + R ∧ ∀ w', heldA (ws.set i w') = w'.held + R
  | [], i, w, h => by simp at h
  | x :: ws, 0, w, h => by
    simp only [List.getElem?_cons_zero, Option.some.injEq] at h
    subst h
    exact ⟨heldA ws, by simp [heldA], fun w' => by simp [heldA]⟩
  | x :: ws, i + 1, w, h => by
    simp only [List.getElem?_cons_succ] at h
    obtain ⟨R, h1, h2⟩ := heldA_set h
    refine ⟨x.held + R, ?_, fun w' => ?_⟩
    · have : heldA (x :: ws) = x.held + heldA ws := by simp [heldA]
      rw [this, h1, ← add_assoc, ← add_assoc, add_comm x.held]
    · have : heldA ((x :: ws).set (i + 1) w') = x.held + heldA (ws.set i w') := by simp [heldA]
      rw [this, h2, ← add_assoc, ← add_assoc, add_comm x.held]

def AOk : AWorker κ → Prop
  | .started b => c.indices.get b ≠ none
  | .found b items => coll b items
  | .done e => e = none

/-- The sizes the loop visits. -/
def sizesA : List Nat := (List.range c.indices.size).drop c.termsLen

structure AInv (s : AState κ S) : Prop where
  np : s.panicked = none
  hist : ∃ dn : List Nat, (s.toSpawn : Multiset Nat) + heldA s.workers + (dn : Multiset Nat) = (sizesA c : Multiset Nat) ∧
    QOk s.queue (dn.map m).sum
  wk : ∀ w ∈ s.workers, AOk c coll w

variable {c m coll QOk}
variable {K : Nat} (hcol : CollectorOk c m coll QOk K)

include hcol in
theorem ainv_start {s : AState κ S} (h : c.start = .ok s) : AInv c m coll QOk s := by
  unfold AConf.start at h
  cases e0 : TopKQueue.new (S := S) c.limit with
  | error e => rw [e0] at h; cases h
  | ok q0 =>
    rw [e0] at h
    simp only [Except.ok.injEq] at h
    subst h
    exact ⟨rfl, ⟨[], by simp [heldA, sizesA], by simpa using hcol.init e0⟩, by simp⟩

include hcol in
theorem ainv_step {s s' : AState κ S} (hi : AInv c m coll QOk s) (h : c.Step s s') : AInv c m coll QOk s' := by
  obtain ⟨np, ⟨dn, hz, hqu⟩, wk⟩ := hi
  have mset : ∀ {i : Nat} {w' : AWorker κ}, AOk c coll w' → ∀ w ∈ s.workers.set i w', AOk c coll w := by
    intro i w' hw' w hw
    rcases List.mem_or_eq_of_mem_set hw with h | rfl
    · exact wk w h
    · exact hw'
  cases h with
  | skip hnp hsp hget =>
    rename_i b rest
    refine ⟨np, ⟨b :: dn, ?_, ?_⟩, wk⟩
    · rw [← hz, hsp]
      simp only [← Multiset.cons_coe, ← Multiset.singleton_add]
      abel
    · have h0 : m b = 0 := hcol.skip hget
      rw [List.map_cons, List.sum_cons, h0, zero_add]
      exact hqu
  | spawn hnp hsp hget =>
    rename_i b rest
    refine ⟨np, ⟨dn, ?_, hqu⟩, ?_⟩
    · rw [← hz, hsp]
      simp only [heldA, List.map_append, List.map_cons, List.map_nil, List.sum_append, List.sum_cons, List.sum_nil,
        AWorker.held, ← Multiset.cons_coe, ← Multiset.singleton_add]
      abel
    · intro w hw
      rcases List.mem_append.1 hw with h | h
      · exact wk w h
      · simp only [List.mem_singleton] at h
        subst h; exact hget
  | search env hnp hw hget hres =>
    rename_i b f items i
    obtain ⟨R, r1, r2⟩ := heldA_set hw
    refine ⟨np, ⟨dn, ?_, hqu⟩, mset ?_⟩
    · rw [← hz, r1, r2]; rfl
    · obtain ⟨k, e1, hk⟩ := hcol.search hget env
      rw [e1] at hres
      simp only [Prod.mk.injEq, and_true] at hres
      rw [← hres]; exact hk
  | searchErr env hnp hw hget hres hp =>
    obtain ⟨k, e1, hk⟩ := hcol.search hget env
    rw [e1] at hres
    simp at hres
  | searchPanic env hnp hw hget hres hp =>
    obtain ⟨k, e1, hk⟩ := hcol.search hget env
    rw [e1] at hres
    simp at hres
  | commit hnp hw hm =>
    rename_i b items g i
    obtain ⟨R, r1, r2⟩ := heldA_set hw
    have hit : coll b items := wk _ (List.mem_of_getElem? hw)
    obtain ⟨g', e1, h1⟩ := hcol.commit hqu b items hit
    rw [hm] at e1
    cases e1
    refine ⟨np, ⟨b :: dn, ?_, ?_⟩, mset rfl⟩
    · rw [← hz, r1, r2]
      simp only [AWorker.held, zero_add, ← Multiset.cons_coe, ← Multiset.singleton_add]
      abel
    · rw [List.map_cons, List.sum_cons, add_comm]
      exact h1
  | commitPanic hnp hw hm =>
    rename_i b items e i
    have hit : coll b items := wk _ (List.mem_of_getElem? hw)
    obtain ⟨g', e1, h1⟩ := hcol.commit hqu b items hit
    rw [hm] at e1
    cases e1

include hcol in
theorem ainv_reachable {s : AState κ S} (h : c.Reachable s) : AInv c m coll QOk s := by
  induction h with
  | start h => exact ainv_start hcol h
  | step _ h ih => exact ainv_step hcol ih h

include hcol in
/-- The result in every final state. -/
theorem afinal {s : AState κ S} (hr : c.Reachable s) (hf : s.final) {C : List (Candidate S)}
    (hC : (C : Multiset (Candidate S)) = ((sizesA c).map m).sum) : s.result = .ok (best K C) := by
  have hi := ainv_reachable hcol hr
  obtain ⟨dn, hz, hqu⟩ := hi.hist
  obtain ⟨f1, f2, f3⟩ := hf
  have hres : s.result = .ok s.queue.getCandidates.1 := by
    unfold AState.result
    split
    · rename_i e es heq
      have hm : e ∈ s.workers.filterMap AWorker.err? := by rw [heq]; simp
      obtain ⟨w, hw, hwe⟩ := List.mem_filterMap.1 hm
      obtain ⟨e', rfl⟩ := f3 w hw
      have := hi.wk _ hw
      simp only [AOk] at this
      rw [this] at hwe
      simp [AWorker.err?] at hwe
    · rfl
  rw [hres]
  have hheld : heldA s.workers = 0 := by
    unfold heldA
    have : ∀ ws : List (AWorker κ), (∀ w ∈ ws, ∃ e, w = .done e) → (ws.map AWorker.held).sum = 0 := by
      intro ws
      induction ws with
      | nil => simp
      | cons w ws ih =>
        intro h
        obtain ⟨e, rfl⟩ := h w List.mem_cons_self
        rw [List.map_cons, List.sum_cons, ih (fun w hw => h w (List.mem_cons_of_mem _ hw))]
        rfl
    exact this _ f3
  rw [f2, hheld] at hz
  simp only [Multiset.coe_nil, zero_add, Multiset.coe_eq_coe] at hz
  rw [(hz.map m).sum_eq, ← hC] at hqu
  rw [hcol.final hqu]

/-! ### Progress and termination -/

def AWorker.weight : AWorker κ → Nat
  | .started _ => 2
  | .found _ _ => 1
  | .done _ => 0

def AState.weight (s : AState κ S) : Nat :=
  3 * s.toSpawn.length + (s.workers.map AWorker.weight).sum + (if s.panicked = none then 1 else 0)

theorem aweight_set : ∀ {ws : List (AWorker κ)} {i : Nat} {w : AWorker κ}, ws[i]? = some w →
    ∃ R, (ws.map AWorker.weight).sum = w.weight + R ∧ ∀ w', ((ws.set i w').map AWorker.weight).sum = w'.weight + R
  | [], i, w, h => by simp at h
  | x :: ws, 0, w, h => by
    simp only [List.getElem?_cons_zero, Option.some.injEq] at h
    subst h
    exact ⟨(ws.map AWorker.weight).sum, by simp, fun w' => by simp⟩
  | x :: ws, i + 1, w, h => by
    simp only [List.getElem?_cons_succ] at h
    obtain ⟨R, h1, h2⟩ := aweight_set h
    refine ⟨x.weight + R, ?_, fun w' => ?_⟩
    · rw [List.map_cons, List.sum_cons, h1]; omega
    · rw [List.set_cons_succ, List.map_cons, List.sum_cons, h2]; omega

theorem aweight_step {s s' : AState κ S} (h : c.Step s s') : s'.weight < s.weight := by
  cases h with
  | skip hnp hsp hget => simp only [AState.weight, hsp, List.length_cons]; omega
  | spawn hnp hsp hget =>
    simp only [AState.weight, hsp, List.length_cons, List.map_append, List.sum_append, List.map_cons, List.map_nil,
      List.sum_cons, List.sum_nil, AWorker.weight]; omega
  | search env hnp hw hget hres =>
    obtain ⟨R, r1, r2⟩ := aweight_set hw
    simp only [AState.weight, r1, r2, AWorker.weight]; omega
  | searchErr env hnp hw hget hres hp =>
    obtain ⟨R, r1, r2⟩ := aweight_set hw
    simp only [AState.weight, r1, r2, AWorker.weight]; omega
  | searchPanic env hnp hw hget hres hp => simp only [AState.weight, hnp]; simp
  | commit hnp hw hm =>
    obtain ⟨R, r1, r2⟩ := aweight_set hw
    simp only [AState.weight, r1, r2, AWorker.weight]; omega
  | commitPanic hnp hw hm => simp only [AState.weight, hnp]; simp

theorem ano_infinite_run (f : Nat → AState κ S) : ¬ ∀ n, c.Step (f n) (f (n + 1)) := by
  intro h
  have : ∀ n, (f n).weight + n ≤ (f 0).weight := by
    intro n
    induction n with
    | zero => simp
    | succ n ih => have := aweight_step (h n); omega
  have := this ((f 0).weight + 1)
  omega

include hcol in
theorem aprogress [Nonempty Env] {s : AState κ S} (hr : c.Reachable s) : s.final ∨ ∃ s', c.Step s s' := by
  have hi := ainv_reachable hcol hr
  have np := hi.np
  cases hsp : s.toSpawn with
  | cons b rest =>
    right
    by_cases hg : c.indices.get b = none
    · exact ⟨_, .skip np hsp hg⟩
    · exact ⟨_, .spawn np hsp hg⟩
  | nil =>
    by_cases hall : ∀ w ∈ s.workers, ∃ e, w = .done e
    · exact .inl ⟨np, hsp, hall⟩
    · right
      push Not at hall
      obtain ⟨w, hw, hne⟩ := hall
      obtain ⟨i, hi'⟩ := List.mem_iff_getElem?.1 hw
      cases w with
      | done e => exact absurd rfl (hne e)
      | started b =>
        have hg : c.indices.get b ≠ none := hi.wk _ hw
        obtain ⟨f, hf⟩ := Option.ne_none_iff_exists'.1 hg
        obtain ⟨env⟩ := ‹Nonempty Env›
        obtain ⟨k, e1, hk⟩ := hcol.search hf env
        exact ⟨_, .search env np hi' hf e1⟩
      | found b items =>
        cases hm : c.merge s.queue items with
        | ok g => exact ⟨_, .commit np hi' hm⟩
        | error e => exact ⟨_, .commitPanic np hi' hm⟩

include hcol in
/-- From every reachable state a final state can be reached. -/
theorem afinish [Nonempty Env] {s : AState κ S} (hr : c.Reachable s) : ∃ s', c.Reachable s' ∧ s'.final := by
  have : ∀ (w : Nat) s, c.Reachable s → s.weight ≤ w → ∃ s', c.Reachable s' ∧ s'.final := by
    intro w
    induction w with
    | zero =>
      intro s hre hw
      rcases aprogress hcol hre with h | ⟨s', h⟩
      · exact ⟨s, hre, h⟩
      · have := aweight_step h; omega
    | succ w ih =>
      intro s hre hw
      rcases aprogress hcol hre with h | ⟨s', h⟩
      · exact ⟨s, hre, h⟩
      · have := aweight_step h
        exact ih s' (hre.step h) (by omega)
  exact this _ s hr le_rfl

include hcol in
/-- The call always ends with a result. -/
theorem aterminates [Nonempty Env] (hstart : ∃ s, c.start = .ok s) :
    ¬ AutocompletePanics c ∧ ¬ AutocompleteBlocks c ∧ (∀ f : Nat → AState κ S, ¬ ∀ i, c.Step (f i) (f (i + 1))) ∧
      ∃ r, AutocompleteReturns c r := by
  obtain ⟨s0, hs0⟩ := hstart
  refine ⟨?_, ?_, ano_infinite_run, ?_⟩
  · rintro (⟨_, h⟩ | ⟨s, hre, h⟩)
    · rw [hs0] at h; simp at h
    · exact h (ainv_reachable hcol hre).np
  · rintro ⟨s, hre, _, hnf, hns⟩
    rcases aprogress hcol hre with h | ⟨s', h⟩
    · exact hnf h
    · exact hns s' h
  · obtain ⟨s', h2, h3⟩ := afinish hcol (.start hs0)
    exact ⟨_, s', h2, h3, rfl⟩

end

/-! ### Autocomplete over documents -/

section
variable {S : Type} (docs : List Doc) (q : List String) (cand : Doc → Candidate S)

/-- The documents with `b` terms that contain all query terms. -/
def matchDocs (b : Nat) : List Doc := docs.filter fun d => decide (d.terms.length = b ∧ q.length ≤ shared q d)

/-- What the documents with `b` terms contribute. -/
def matchAt (b : Nat) : Multiset (Candidate S) := ((matchDocs docs q b).map cand : List (Candidate S))


variable {docs q}
variable {κ Env : Type} {ix : SegIndices κ Env} (hs : SegmentsOk ix docs q) {n : Nat} (hd : DocsAny docs q n) (hq : 1 ≤ n)

include hs hd hq in
theorem matchAt_skip {b : Nat} (hget : ix.get b = none) : matchAt docs q cand b = 0 := by
  unfold matchAt matchDocs
  rw [Multiset.coe_eq_zero, List.map_eq_nil_iff, List.filter_eq_nil_iff]
  intro d hdm
  simp only [decide_eq_true_eq, not_and, not_le]
  intro hlen
  have h1 := hs.none b hget d hdm hlen
  have h2 : shared q d = 0 := by
    show (q.filter (· ∈ d.terms)).length = 0
    rw [h1, List.length_eq_zero_iff, List.filter_eq_nil_iff]
    simp
  rw [h2, hd.len]; omega

include hs hd hq in
/-- All sizes together contribute the documents that contain all query terms and have as many terms as the query. -/
theorem matchAt_sum_any : (((docs.filter fun d => decide (q.length ≤ shared q d ∧ n ≤ d.terms.length)).map cand : List (Candidate S)) :
    Multiset (Candidate S)) = ((((List.range ix.size).drop n).map (matchAt docs q cand)).sum) := by
  let dn := (List.range ix.size).drop n
  have hz : dn.Perm ((List.range ix.size).drop n) := .refl _
  have hnd : dn.Nodup := hz.nodup_iff.2 (List.nodup_range.sublist (List.drop_sublist _ _))
  let A := docs.filter fun d => decide (q.length ≤ shared q d ∧ n ≤ d.terms.length)
  have hsum : (dn.map (matchAt docs q cand)).sum = ((A.map cand : List (Candidate S)) : Multiset (Candidate S)) := by
    have e1 : (dn.map (matchAt docs q cand)).sum
        = (((dn.flatMap fun b => A.filter fun d => decide (d.terms.length = b)).map cand : List (Candidate S)) : Multiset (Candidate S)) := by
      have : ∀ l : List Nat, (∀ b ∈ l, n ≤ b) → (l.map (matchAt docs q cand)).sum
          = (((l.flatMap fun b => A.filter fun d => decide (d.terms.length = b)).map cand : List (Candidate S)) : Multiset (Candidate S)) := by
        intro l hl
        induction l with
        | nil => simp
        | cons b l ih =>
          have hnb := hl b List.mem_cons_self
          rw [List.map_cons, List.sum_cons, ih (fun x hx => hl x (List.mem_cons_of_mem _ hx)), List.flatMap_cons, List.map_append, ← Multiset.coe_add]
          congr 1
          unfold matchAt matchDocs
          congr 2
          simp only [A, List.filter_filter]
          apply List.filter_congr
          intro d _
          rw [Bool.eq_iff_iff]
          simp only [Bool.and_eq_true, decide_eq_true_eq]
          constructor
          · rintro ⟨h1, h2⟩
            exact ⟨h1, h2, by omega⟩
          · rintro ⟨h1, h2, _⟩
            exact ⟨h1, h2⟩
      refine this dn fun b hb => ?_
      obtain ⟨i, hi, e⟩ := List.mem_iff_getElem.1 (hz.mem_iff.1 hb)
      simp at e
      omega
    rw [e1, Multiset.coe_eq_coe]
    apply List.Perm.map
    refine (List.flatMap_perm_of_partition (fun d : Doc => d.terms.length) A dn hnd).trans (List.Perm.of_eq ?_)
    rw [List.filter_eq_self]
    intro d hdA
    obtain ⟨h1, h2⟩ := List.mem_filter.1 hdA
    simp only [decide_eq_true_eq] at h2 ⊢
    rw [hz.mem_iff]
    have h3 := h2.2
    have h5 := hs.card d h1 (by intro e; rw [e] at h3; simp at h3; omega)
    rw [List.mem_iff_getElem]
    refine ⟨d.terms.length - n, by simp; omega, ?_⟩
    simp
    omega
  exact hsum.symm

include hs hd hq in
/-- All sizes together contribute the documents that contain all query terms, if these are distinct. -/
theorem matchAt_sum (hqd : q.Nodup) : (((docs.filter fun d => decide (q.length ≤ shared q d)).map cand : List (Candidate S)) :
    Multiset (Candidate S)) = ((((List.range ix.size).drop n).map (matchAt docs q cand)).sum) := by
  rw [← matchAt_sum_any cand hs hd hq]
  congr 2
  apply List.filter_congr
  intro d _
  have h1 := shared_le_terms (d := d) hqd
  have h2 := hd.len
  rw [Bool.eq_iff_iff]
  simp only [decide_eq_true_eq]
  omega

end

/-! ### The first-k collector -/

section
variable {Env : Type} {docs : List Doc} {q : List String}

/-- The candidate for a document. -/
def idCand (d : Doc) : Candidate ℚ := ⟨d.id, -(d.id : ℚ)⟩

variable (docs q) in
/-- What the goroutine for `b` collects. -/
def itemsAt (K b : Nat) : List MergeCandidate :=
  (packed ((matchDocs docs q b).map fun d => (d.id, shared q d))).take K


/-- The queue after everything in `C` was offered (nothing is ever offered to a queue of capacity 0). -/
def QOk (K : Nat) (g : TopKQueue ℚ) (C : Multiset (Candidate ℚ)) : Prop :=
  (K = 0 ∧ g.len = 0) ∨ g.Holds K C


variable {ix : SegIndices (List MergeCandidate) Env} {n K : Nat} (hs : SegmentsOk ix docs q) (hd : DocsAny docs q n)
  (hq : 1 ≤ n)

include hs hd hq in
/-- The search of a goroutine succeeds. -/
theorem asearch {b : Nat} {f} (hf : ix.get b = some f) (env : Env) :
    f env (firstKCollect K) n [] = (itemsAt docs q K b, none) := by
  obtain ⟨out, o1, o2, o3⟩ := hs.some b f hf env (firstKCollect K) n hq []
  rw [o3, feed_firstK _ _ (by simp)]
  have : out = (matchDocs docs q b).map fun d => (d.id, shared q d) := by
    have := out_eq (c := (⟨realOps 0, exactMetric (realOps 0), ⟨0, fun _ => none⟩, n, 0, 0⟩ : SConf ℝ Env)) hd o1 o2
    rw [this]
    unfold matchDocs
    rw [hd.len]
  rw [this]
  simp [itemsAt]

include hd in
/-- Committing the collected items. -/
theorem acommit {g : TopKQueue ℚ} {C : Multiset (Candidate ℚ)} (h : QOk K g C) (b : Nat) :
    ∃ g', firstKMerge g (itemsAt docs q K b) = .ok g' ∧ QOk K g' (C + matchAt docs q idCand b) := by
  rcases Nat.eq_zero_or_pos K with rfl | hK
  · refine ⟨g, by simp [firstKMerge, itemsAt, addAll], .inl ⟨rfl, ?_⟩⟩
    rcases h with h | h
    · exact h.2
    · have := h.pos; omega
  · have hh : g.Holds K C := by
      rcases h with h | h
      · omega
      · exact h
    have hitems : (itemsAt docs q K b).map firstKCandidate = ((matchDocs docs q b).map idCand).take K := by
      unfold itemsAt packed
      rw [← List.map_take, ← List.map_take, ← List.map_take, List.map_map, List.map_map]
      apply List.map_congr_left
      intro d hdm
      have hdd : d ∈ docs := List.mem_of_mem_filter (List.mem_of_mem_take hdm)
      simp only [Function.comp, firstKCandidate, idCand]
      rw [MergeCandidate.position_new (hd.id32 d hdd)
        (lt_of_le_of_lt (shared_le_query q d) (by rw [hd.len]; exact hd.qlen))]
    obtain ⟨g', e1, h1⟩ := addAll_spec (((matchDocs docs q b).map idCand).take K) hh
    refine ⟨g', by unfold firstKMerge; rw [hitems]; exact e1, .inr ?_⟩
    have hsplit : matchAt docs q idCand b = ((((matchDocs docs q b).map idCand).take K : List (Candidate ℚ)) : Multiset (Candidate ℚ))
        + ((((matchDocs docs q b).map idCand).drop K : List (Candidate ℚ)) : Multiset (Candidate ℚ)) := by
      rw [Multiset.coe_add, List.take_append_drop]; rfl
    rw [hsplit]
    refine Holds.absorb h1 ?_ ?_
    · rw [Multiset.coe_add, List.take_append_drop, Multiset.coe_card, Multiset.coe_card, List.length_take]
    · intro r hr x hx
      have hsorted : ((matchDocs docs q b).map idCand).Pairwise (fun a b => a.betterEq b = true) := by
        rw [List.pairwise_map]
        refine (hd.ids.filter _).imp ?_
        intro a b hab
        rw [betterEq_iff]
        left
        simp only [idCand, neg_lt_neg_iff]
        exact_mod_cast hab
      rw [← List.take_append_drop K ((matchDocs docs q b).map idCand), List.pairwise_append] at hsorted
      exact hsorted.2.2 r (Multiset.mem_coe.1 hr) x (Multiset.mem_coe.1 hx)


include hs hd hq in
theorem firstK_ok : CollectorOk (S := ℚ) ⟨ix, n, K, [], firstKCollect K, firstKMerge⟩ (matchAt docs q idCand)
    (fun b k => k = itemsAt docs q K b) (QOk K) K where
  skip := matchAt_skip idCand hs hd hq
  init {g} e0 := by
    rcases Nat.eq_zero_or_pos K with rfl | hK
    · left
      simp only [TopKQueue.new] at e0
      rw [if_neg (by omega)] at e0
      cases e0
      exact ⟨rfl, rfl⟩
    · right
      exact new_holds hK e0
  search hf env := ⟨_, asearch hs hd hq hf env, rfl⟩
  commit h b k hk := by rw [hk]; exact acommit hd h b
  final {g C} h := by
    rcases h with ⟨rfl, h0⟩ | h
    · simp [getCandidates, h0, best]
    · exact (getCandidates_spec h).1

end
end Verif
