import Verif.Proofs.DivideSkip
import Verif.Proofs.MergeOverflow
/-!
Property theorems C12–C18 (pkg/merger).

Reading guide. `Opened s l` — in every history of calls the iterator `s` shows what the specification
iterator at the beginning of the list `l` shows (Verif/Spec/Iterator.lean; C08–C11 prove it of the
posting lists of the index). `IsTOcc ls T out` — `out` is the answer of the T-occurrence problem
(Verif/Spec/Merge.lean). `feed collect k cs` — deliver the candidates `cs` one by one to the collector
in state `k` until it stops or fails. The collector (`collect`) is arbitrary.
-/
namespace Verif.Props
open Verif Spec

/-- The iterator behaves like one standing at the beginning of `l`. -/
def Opened {σ : Type} [ListIter σ] (s : σ) (l : List Nat) : Prop :=
  ∀ ops, ListIter.run s ops = (Iter.start l).run ops

/-- Input of the mergers: iterators opened on strictly ascending lists of `uint32`, of which no position is in more than
65535 (the counter of a candidate). -/
structure MergeInput {σ : Type} [ListIter σ] (rid : List σ) (ls : List (List Nat)) : Prop where
  opened : List.Forall₂ Opened rid ls
  ascending : ∀ l ∈ ls, l.Pairwise (· < ·)
  uint32 : ∀ l ∈ ls, ∀ x ∈ l, x < 2 ^ 32
  count : ls.length < 2 ^ 32
  overlap : ∀ p, occurrences ls p ≤ 0xFFFF

/-- Candidates as delivered: packed position and overlap. -/
def packed (out : List (Nat × Nat)) : List MergeCandidate := out.map fun x => MergeCandidate.new x.1 x.2

section
variable {σ κ : Type} [ListIter σ]

/-- Observational equivalence is a simulation. -/
def obsSim (σ : Type) [ListIter σ] : IterSim σ where
  Rep s t := ∀ ops, ListIter.run s ops = t.run ops
  get {s t} h := by
    have := h [.get]
    simp only [ListIter.run, Iter.run, ListIter.step, Iter.step, List.cons.injEq, and_true] at this
    exact obsOf_inj this
  hasNext {s t} h := by
    have := h [.hasNext]
    simpa [ListIter.run, Iter.run, ListIter.step, Iter.step] using this
  next {s t} h := by
    have := h [.next]
    simp only [ListIter.run, Iter.run, ListIter.step, Iter.step, List.cons.injEq, and_true] at this
    refine ⟨obsOf_inj this, fun ops => ?_⟩
    have := h (.next :: ops)
    simp only [ListIter.run, Iter.run, ListIter.step, Iter.step, List.cons.injEq] at this
    exact this.2
  lowerBound {s t} bnd h := by
    have := h [.lowerBound bnd]
    simp only [ListIter.run, Iter.run, ListIter.step, Iter.step, List.cons.injEq, and_true] at this
    refine ⟨obsOf_inj this, fun ops => ?_⟩
    have := h (.lowerBound bnd :: ops)
    simp only [ListIter.run, Iter.run, ListIter.step, Iter.step, List.cons.injEq] at this
    exact this.2
  len {s t} h := by
    have := h [.len]
    simpa [ListIter.run, Iter.run, ListIter.step, Iter.step] using this

theorem MergeInput.rep {rid : List σ} {ls : List (List Nat)} (h : MergeInput rid ls) :
    List.Forall₂ (fun s l => (obsSim σ).Rep s (Iter.start l)) rid ls := h.opened

theorem MergeInput.good {rid : List σ} {ls : List (List Nat)} (h : MergeInput rid ls) :
    ∀ l ∈ ls, GoodList l := fun l hl => ⟨h.ascending l hl, h.uint32 l hl⟩

variable (collect : κ → MergeCandidate → κ × CollectRes Err) (sort sortDesc : List σ → List σ)

/-- **C12** ScanCount delivers exactly the T-occurrences (for every threshold `T`; no list may be
empty when `T` equals the number of lists, see `C16_empty_list`). `sort` is any reordering, as `sort.Sort` is. -/
theorem C12_scanCount (hs : ∀ r, (sort r).Perm r) (rid : List σ) (ls : List (List Nat)) (T : Nat) (k : κ)
    (h : MergeInput rid ls) (hne : ls.length = T → ∀ l ∈ ls, l ≠ []) :
    ∃ out, IsTOcc ls T out ∧ scanCount collect sort rid T k = feed collect k (packed out) :=
  optimizerMerge_eq (obsSim σ) collect hs (scanCountMerge collect) T k h.rep h.good hne
    (by have := h.count; omega)
    (fun _ => scanCountMerge_eq (obsSim σ) collect T k h.rep h.good h.overlap)

/-- **C13** CPMerge delivers exactly the T-occurrences for every threshold `T ≥ 1`. -/
theorem C13_cpMerge (hs : ∀ r, (sort r).Perm r) (rid : List σ) (ls : List (List Nat)) (T : Nat) (k : κ)
    (hT : 1 ≤ T) (h : MergeInput rid ls) (hne : ls.length = T → ∀ l ∈ ls, l ≠ []) :
    ∃ out, IsTOcc ls T out ∧ cpMerge collect sort rid T k = feed collect k (packed out) :=
  optimizerMerge_eq (obsSim σ) collect hs (cpMergeMerge collect sort) T k h.rep h.good hne
    (by have := h.count; omega)
    (fun hlt => cpMergeMerge_eq (obsSim σ) collect hs T k h.rep h.good h.overlap hT (by omega))

/-- **C13** the bound `T ≥ 1` is needed: for threshold 0 CPMerge panics on every nonempty `Rid`. -/
theorem C13_threshold_zero_panics (hs : ∀ r, (sort r).Perm r) (rid : List σ) (hr : rid ≠ []) (k : κ) :
    cpMerge collect sort rid 0 k = (k, some .panicSlice) := by
  have h1 : (sort rid).length = rid.length := (hs rid).length_eq
  have h2 : 0 < rid.length := List.length_pos_iff.2 hr
  unfold cpMerge optimizerMerge cpMergeMerge
  simp only
  rw [if_neg (by omega), if_neg (by omega)]
  simp

/-- **C14** MergeSkip delivers exactly the T-occurrences for nonempty lists. -/
theorem C14_mergeSkip (hs : ∀ r, (sort r).Perm r) (rid : List σ) (ls : List (List Nat)) (T : Nat) (k : κ)
    (h : MergeInput rid ls) (hne : ∀ l ∈ ls, l ≠ []) :
    ∃ out, IsTOcc ls T out ∧ mergeSkip collect sort rid T k = feed collect k (packed out) :=
  optimizerMerge_eq (obsSim σ) collect hs (mergeSkipMerge collect) T k h.rep h.good (fun _ => hne)
    (by have := h.count; omega)
    (fun _ => mergeSkipMerge_eq (obsSim σ) collect T k h.rep h.good hne (by have := h.count; omega))

/-- **C15** (partial) DivideSkip with `mu > 0` delivers exactly the T-occurrences provided that some list
has at least two elements (the full claim, for all nonempty lists, is false: `C15_singletons_wrong`).
`sortDesc` is `sort.Sort(sort.Reverse(rid))`: a reordering with the lengths descending. Over ℝ. -/
theorem C15_divideSkip_partial (hs : ∀ r, (sort r).Perm r) (hsd : ∀ r, (sortDesc r).Perm r)
    (hdesc : ∀ r, (sortDesc r).Pairwise (fun a b => ListIter.len b ≤ ListIter.len a))
    (mu : ℝ) (hmu : 0 < mu) (rid : List σ) (ls : List (List Nat)) (T : Nat) (k : κ) (hT : 1 ≤ T)
    (h : MergeInput rid ls) (hne : ∀ l ∈ ls, l ≠ []) (h2 : ∃ l ∈ ls, 2 ≤ l.length) :
    ∃ out, IsTOcc ls T out ∧
      divideSkip collect sort sortDesc (divideNumLong mu) rid T k = feed collect k (packed out) := by
  refine optimizerMerge_eq (obsSim σ) collect hs _ T k h.rep h.good (fun _ => hne)
    (by have := h.count; omega)
    (fun hlt => divideSkipMerge_eq (obsSim σ) collect hs hsd T k h.rep h.good hne h.count h.overlap hlt ?_)
  intro s0 rest hq
  apply divideNumLong_lt hmu hT
  obtain ⟨l, hl, hl2⟩ := h2
  obtain ⟨i, hi⟩ := List.getElem?_of_mem hl
  obtain ⟨s, hs1, hs2⟩ := forall₂_getElem? h.rep hi
  have hlen : ListIter.len s = l.length := (obsSim σ).len hs2
  have hmem : s ∈ sortDesc rid := (hsd rid).symm.subset (List.mem_of_getElem? hs1)
  have hp := hdesc rid
  rw [hq] at hmem hp
  rcases List.mem_cons.1 hmem with rfl | hm
  · omega
  · have := (List.pairwise_cons.1 hp).1 s hm; omega

/-- **C15** in general: correct whenever the number of long lists chosen is below the threshold. -/
theorem C15_divideSkip_general_partial (hs : ∀ r, (sort r).Perm r) (hsd : ∀ r, (sortDesc r).Perm r)
    (numLong : Nat → Nat → Int) (rid : List σ) (ls : List (List Nat)) (T : Nat) (k : κ)
    (h : MergeInput rid ls) (hne : ∀ l ∈ ls, l ≠ []) (hl : ∀ M, 0 ≤ numLong T M ∧ numLong T M < T) :
    ∃ out, IsTOcc ls T out ∧
      divideSkip collect sort sortDesc numLong rid T k = feed collect k (packed out) :=
  optimizerMerge_eq (obsSim σ) collect hs _ T k h.rep h.good (fun _ => hne)
    (by have := h.count; omega)
    (fun hlt => divideSkipMerge_eq (obsSim σ) collect hs hsd T k h.rep h.good hne h.count h.overlap hlt
      (fun s0 _ _ => hl _))

/-- **C16** Intersect delivers exactly the positions contained in all lists, with overlap = number of lists. -/
theorem C16_intersect (hs : ∀ r, (sort r).Perm r) (rid : List σ) (ls : List (List Nat)) (k : κ)
    (h : MergeInput rid ls) (hne : ∀ l ∈ ls, l ≠ []) :
    ∃ out : List Nat, out.Pairwise (· < ·) ∧ (∀ p, p ∈ out ↔ ls ≠ [] ∧ ∀ l ∈ ls, p ∈ l) ∧
      intersect collect sort rid k
        = feed collect k (out.map fun p => MergeCandidate.new p ls.length) := by
  obtain ⟨out, h1, h2⟩ := intersect_eq (obsSim σ) collect hs k h.rep h.good hne
    (by have := h.count; omega)
  have hsnd : ∀ x ∈ out, x.2 = ls.length := by
    rintro ⟨p, c⟩ hx
    have := (h1.exact p c).1 hx
    have := occurrences_le ls p
    simp only; omega
  refine ⟨out.map Prod.fst, ?_, fun p => ?_, ?_⟩
  · rw [List.pairwise_map]; exact h1.ascending
  · rw [List.mem_map]
    constructor
    · rintro ⟨⟨q, c⟩, hx, rfl⟩
      have h3 := (h1.exact q c).1 hx
      have hc := hsnd _ hx
      simp only at hc
      have h4 : occurrences ls q = ls.length := by omega
      refine ⟨?_, occurrences_eq_length.1 h4⟩
      rintro rfl; simp at hc; omega
    · rintro ⟨hne', hall⟩
      have := occurrences_eq_length.2 hall
      have hpos : 0 < ls.length := List.length_pos_iff.2 hne'
      exact ⟨(p, ls.length), (h1.exact p _).2 ⟨this.symm, by omega, by omega⟩, rfl⟩
  · rw [h2, List.map_map]
    congr 1
    apply List.map_congr_left
    rintro ⟨p, c⟩ hx
    have := hsnd _ hx
    simp only at this
    simp [pk, this]

/-- **C16** the hypothesis "no empty list" is needed: when the shortest list is empty Intersect reports
an error instead of success with no result. -/
theorem C16_empty_list (rid rest : List σ) (s : σ) (k : κ)
    (hq : sort rid = s :: rest) (h : Opened s []) :
    intersect collect sort rid k = (k, some .notDereferencable) := by
  have hget : ListIter.get s = .error .notDereferencable :=
    (obsSim σ).get (s := s) (t := Iter.start []) h
  unfold intersect
  rw [hq]
  simp [hget]

/-- **C17** All merge algorithms are interchangeable: the same final state of the collector (hence the
same delivered candidates, also when it stops early) and the same returned error. -/
theorem C17_interchangeable (hs : ∀ r, (sort r).Perm r) (rid : List σ) (ls : List (List Nat)) (T : Nat)
    (k : κ) (hT : 1 ≤ T) (h : MergeInput rid ls) (hne : ∀ l ∈ ls, l ≠ []) :
    scanCount collect sort rid T k = cpMerge collect sort rid T k ∧
    scanCount collect sort rid T k = mergeSkip collect sort rid T k := by
  obtain ⟨o1, a1, b1⟩ := C12_scanCount collect sort hs rid ls T k h (fun _ => hne)
  obtain ⟨o2, a2, b2⟩ := C13_cpMerge collect sort hs rid ls T k hT h (fun _ => hne)
  obtain ⟨o3, a3, b3⟩ := C14_mergeSkip collect sort hs rid ls T k h hne
  rw [b1, b2, b3, isTOcc_unique a1 a2, isTOcc_unique a2 a3]
  exact ⟨rfl, rfl⟩

/-- **C17** DivideSkip agrees with the others under the condition of C15. -/
theorem C17_divideSkip (hs : ∀ r, (sort r).Perm r) (hsd : ∀ r, (sortDesc r).Perm r)
    (hdesc : ∀ r, (sortDesc r).Pairwise (fun a b => ListIter.len b ≤ ListIter.len a))
    (mu : ℝ) (hmu : 0 < mu) (rid : List σ) (ls : List (List Nat)) (T : Nat) (k : κ) (hT : 1 ≤ T)
    (h : MergeInput rid ls) (hne : ∀ l ∈ ls, l ≠ []) (h2 : ∃ l ∈ ls, 2 ≤ l.length) :
    divideSkip collect sort sortDesc (divideNumLong mu) rid T k = scanCount collect sort rid T k := by
  obtain ⟨o1, a1, b1⟩ := C12_scanCount collect sort hs rid ls T k h (fun _ => hne)
  obtain ⟨o2, a2, b2⟩ := C15_divideSkip_partial collect sort sortDesc hs hsd hdesc mu hmu rid ls T k hT h hne h2
  rw [b1, b2, isTOcc_unique a1 a2]

/-- **C17** A collector that stops after the first `n` candidates has seen exactly the first `n` of
the answer, and the merge succeeds. -/
theorem C17_early_stop (n : Nat) (hn : 0 < n) (out : List (Nat × Nat)) :
    feed (fun (seen : List MergeCandidate) c =>
        (seen ++ [c], if seen.length + 1 < n then CollectRes.ok else CollectRes.terminated))
      [] (packed out) = ((packed out).take n, (none : Option Err)) := by
  have : ∀ (xs seen : List MergeCandidate), seen.length < n →
      feed (fun (seen : List MergeCandidate) c =>
        (seen ++ [c], if seen.length + 1 < n then CollectRes.ok else CollectRes.terminated))
      seen xs = (seen ++ xs.take (n - seen.length), (none : Option Err)) := by
    intro xs
    induction xs with
    | nil => intro seen _; simp [feed]
    | cons x xs ih =>
      intro seen hs
      unfold feed
      by_cases h : seen.length + 1 < n
      · simp only [h, if_true]
        rw [ih _ (by simpa using h)]
        obtain ⟨m, hm⟩ : ∃ m, n - seen.length = m + 1 := ⟨n - seen.length - 1, by omega⟩
        simp only [List.length_append, List.length_singleton, hm, List.take_succ_cons, List.append_assoc,
          List.singleton_append]
        congr 4; omega
      · simp only [h, if_false]
        have : n - seen.length = 1 := by omega
        simp [this]
  simpa using this (packed out) [] (by simpa using hn)

end

/-- **C18** position and overlap are recovered from a candidate. -/
theorem C18_pack (position overlap : Nat) (hp : position < 2 ^ 32) (ho : overlap < 2 ^ 32) :
    (MergeCandidate.new position overlap).position = position ∧
    (MergeCandidate.new position overlap).overlap = overlap ∧
    MergeCandidate.new position overlap < 2 ^ 64 :=
  ⟨MergeCandidate.position_new hp ho, MergeCandidate.overlap_new hp ho, by
    rw [MergeCandidate.new_eq hp ho]
    change (position * 2 ^ 32 + overlap : Nat) < 2 ^ 64
    omega⟩

/-- **C18** incrementing raises the overlap and keeps the position, until the limit where it panics. -/
theorem C18_increment (position overlap : Nat) (hp : position < 2 ^ 32) (ho : overlap ≤ 0xFFFF) :
    (overlap < 0xFFFF → ∃ c, (MergeCandidate.new position overlap).increment = .ok c ∧
      c.position = position ∧ c.overlap = overlap + 1) ∧
    (overlap = 0xFFFF → (MergeCandidate.new position overlap).increment = .error .panicOverflow) := by
  constructor
  · intro h
    exact ⟨_, MergeCandidate.increment_new hp h, MergeCandidate.position_new hp (by omega),
      MergeCandidate.overlap_new hp (by omega)⟩
  · intro h
    unfold MergeCandidate.increment
    rw [MergeCandidate.overlap_new hp (by omega), if_pos (show overlap = MergeCandidate.maxOverlap from h)]

/-! ### The limit of the counters -/

section
variable {σ κ : Type} [ListIter σ] (collect : κ → MergeCandidate → κ × CollectRes Err) (sort : List σ → List σ)

/-- **C18** the limit is sharp: if a position is in more than 65535 of the lists, ScanCount panics — whatever the threshold is
(unless all lists have to contain the position: then the lists are intersected and nothing is counted). -/
theorem C18_scanCount_overflow (rid : List σ) (ls : List (List Nat)) (T : Nat) (k : κ)
    (hop : List.Forall₂ Opened rid ls) (hasc : ∀ l ∈ ls, l.Pairwise (· < ·)) (h32 : ∀ l ∈ ls, ∀ x ∈ l, x < 2 ^ 32)
    (hT : T < ls.length) {p : Nat} (hp : 0xFFFF < occurrences ls p) :
    scanCount collect sort rid T k = (k, some .panicOverflow) := by
  have hlen : rid.length = ls.length := hop.length_eq
  have hle := occurrences_le ls p
  unfold scanCount optimizerMerge
  simp only [hlen]
  rw [if_neg (by omega), if_neg (by omega), Int.toNat_natCast]
  exact scanCountMerge_overflow (obsSim σ) collect T k hop (fun l hl => ⟨hasc l hl, h32 l hl⟩) hp

/-- **C18** the same for CPMerge, the algorithm of the search, when the position is an answer. -/
theorem C18_cpMerge_overflow (hs : ∀ r, (sort r).Perm r) (rid : List σ) (ls : List (List Nat)) (T : Nat) (k : κ) (h1 : 1 ≤ T)
    (hop : List.Forall₂ Opened rid ls) (hasc : ∀ l ∈ ls, l.Pairwise (· < ·)) (h32 : ∀ l ∈ ls, ∀ x ∈ l, x < 2 ^ 32)
    (hT : T < ls.length) {p : Nat} (hp : 0xFFFF < occurrences ls p) (hpT : T ≤ occurrences ls p) :
    cpMerge collect sort rid T k = (k, some .panicOverflow) := by
  have hlen : rid.length = ls.length := hop.length_eq
  unfold cpMerge optimizerMerge
  simp only [hlen]
  rw [if_neg (by omega), if_neg (by omega), Int.toNat_natCast]
  exact cpMergeMerge_overflow (obsSim σ) collect hs T k hop (fun l hl => ⟨hasc l hl, h32 l hl⟩) h1 (by omega) hp hpT

end

/-- 65536 copies of a list with one element meet the hypotheses. -/
example (collect : Unit → MergeCandidate → Unit × CollectRes Err) :
    cpMerge collect id ((List.replicate 65536 [7]).map SliceIter.new) 2 () = ((), some .panicOverflow) := by
  have hocc : ∀ n, occurrences (List.replicate n [7]) 7 = n := by
    intro n
    rw [occurrences, List.filter_eq_self.2 (fun l hl => by rw [List.eq_of_mem_replicate hl]; simp), List.length_replicate]
  have hop : ∀ n, List.Forall₂ Opened ((List.replicate n [7]).map SliceIter.new) (List.replicate n [7]) := by
    intro n
    induction n with
    | zero => exact .nil
    | succ n ih => exact .cons (fun ops => SliceIter.sim.run (SliceIter.rep_new (by simp)) ops) ih
  refine C18_cpMerge_overflow collect id (fun _ => .refl _) _ (List.replicate 65536 [7]) 2 () (by decide) (hop _) ?_ ?_ ?_
    (p := 7) ?_ ?_
  · intro l hl; rw [List.eq_of_mem_replicate hl]; simp
  · intro l hl; rw [List.eq_of_mem_replicate hl]; simp
  · rw [List.length_replicate]; omega
  · rw [hocc]; omega
  · rw [hocc]; omega

/-! ### Concrete cases -/

/-- The slice iterators over `ls` are a legal input (non-vacuity of `MergeInput`). -/
theorem mergeInput_slices (ls : List (List Nat)) (h1 : ∀ l ∈ ls, l.Pairwise (· < ·))
    (h2 : ∀ l ∈ ls, ∀ x ∈ l, x < 2 ^ 32) (h3 : ls.length ≤ 0xFFFF) :
    MergeInput (ls.map SliceIter.new) ls := by
  refine ⟨?_, h1, h2, by omega, fun p => (occurrences_le ls p).trans h3⟩
  clear h2 h3
  induction ls with
  | nil => exact .nil
  | cons l ls ih =>
    exact .cons (fun ops => SliceIter.sim.run (SliceIter.rep_new ((h1 l (by simp)).imp fun h => by omega)) ops)
      (ih fun l' hl' => h1 l' (by simp [hl']))

example : MergeInput ([[1, 3, 9], [3, 9], [2, 3]].map SliceIter.new) [[1, 3, 9], [3, 9], [2, 3]] :=
  mergeInput_slices _ (by decide) (by decide) (by decide)

example : IsTOcc [[1, 3, 9], [3, 9], [2, 3]] 2 [(3, 3), (9, 2)] := by
  refine ⟨by decide, fun p c => ?_⟩
  have key : occurrences [[1, 3, 9], [3, 9], [2, 3]] p
      = (if p = 1 ∨ p = 3 ∨ p = 9 then 1 else 0) + (if p = 3 ∨ p = 9 then 1 else 0)
        + (if p = 2 ∨ p = 3 then 1 else 0) := by
    simp only [occurrences_cons, List.mem_cons, List.not_mem_nil, or_false]
    simp [occurrences]; omega
  rw [key]
  simp only [List.mem_cons, Prod.mk.injEq, List.not_mem_nil, or_false]
  split <;> split <;> split <;> omega

/-- **C15** is false for singleton lists: of `[5], [5], [7]` with threshold 2 position 5 is the answer, but
DivideSkip (any `mu`) delivers nothing. -/
theorem C15_singletons_wrong (mu : ℝ) :
    divideSkip simpleCollect id id (divideNumLong mu) ([[5], [5], [7]].map SliceIter.new) 2 []
      = ([], none) ∧ IsTOcc [[5], [5], [7]] 2 [(5, 2)] := by
  constructor
  · have h1 : divideNumLong mu 2 1 = 2 := divideNumLong_one mu 2
    have hlen : ListIter.len (SliceIter.new [5]) = 1 := rfl
    have hdrop : List.drop 2 ([[5], [5], [7]].map SliceIter.new) = [SliceIter.new [7]] := rfl
    have htake : List.take 2 ([[5], [5], [7]].map SliceIter.new) = [SliceIter.new [5], SliceIter.new [5]] := rfl
    obtain ⟨out, o1, o2⟩ := mergeSkipMerge_eq SliceIter.sim simpleCollect 0 []
      (rid := [SliceIter.new [7]]) (ls := [[7]]) (.cons (SliceIter.rep_new (by decide)) .nil)
      (by simp [GoodList]) (by simp) (by simp)
    have ho : out = [(7, 1)] := by
      apply isTOcc_unique o1
      refine ⟨by decide, fun p c => ?_⟩
      simp only [occurrences_cons, List.mem_cons, Prod.mk.injEq, List.not_mem_nil, or_false]
      simp only [occurrences, List.filter_nil, List.length_nil]
      split <;> omega
    rw [ho, feed_simpleCollect] at o2
    have o3 : mergeSkip simpleCollect id [SliceIter.new [7]] (((2 : Nat) : Int) - ((2 : Nat) : Int)) []
        = ([MergeCandidate.new 7 1], none) := by
      unfold mergeSkip optimizerMerge
      simp only
      rw [if_neg (by decide), if_neg (by decide)]
      exact o2
    unfold divideSkip optimizerMerge
    simp only
    rw [if_neg (by decide), if_neg (by decide)]
    have hq : ([[5], [5], [7]].map SliceIter.new) = [SliceIter.new [5], SliceIter.new [5], SliceIter.new [7]] := rfl
    unfold divideSkipMerge
    simp only [id, hq, show Int.toNat 2 = 2 from rfl, hlen, h1]
    rw [if_neg (by decide)]
    simp only [show Int.toNat ((2 : Nat) : Int) = 2 from rfl, List.drop, List.take, List.isEmpty_cons,
      Bool.false_eq_true, if_false]
    rw [o3]
    have hp : MergeCandidate.position (MergeCandidate.new 7 1) = 7 := by decide
    have ho' : MergeCandidate.overlap (MergeCandidate.new 7 1) = 1 := by decide
    simp [divideLoop, divideProbe, hp, ho', ListIter.lowerBound, SliceIter.lowerBound, SliceIter.new,
      SliceIter.isValid, sortSearch, sortSearchLoop, bumpIfHit, bind, Except.bind, pure, Except.pure]
  · refine ⟨by decide, fun p c => ?_⟩
    simp only [occurrences_cons, List.mem_cons, Prod.mk.injEq, List.not_mem_nil, or_false]
    simp only [occurrences, List.filter_nil, List.length_nil]
    split <;> split <;> omega

/-- **C14** is false with an empty list: MergeSkip reports position 0, which occurs nowhere, for
`[], [5]` and threshold 1 (the collector stops after the first candidate). -/
theorem C14_empty_list_wrong :
    mergeSkip (fun (seen : List MergeCandidate) c => (seen ++ [c], .terminated)) id
        ([[], [5]].map SliceIter.new) 1 [] = ([MergeCandidate.new 0 1], none) ∧
      occurrences [[], [5]] 0 = 0 := by
  refine ⟨?_, by decide⟩
  unfold mergeSkip optimizerMerge
  simp only
  rw [if_neg (by decide), if_neg (by decide)]
  simp [mergeSkipMerge, msInit, ListIter.get, SliceIter.get, SliceIter.new, SliceIter.isValid, SliceIter.at',
    msLoop, Heap.init, Heap.initLoop, Heap.down, Heap.pop, Heap.swap, popEqual, ListIter.len, SliceIter.len,
    Record.less]

end Verif.Props
