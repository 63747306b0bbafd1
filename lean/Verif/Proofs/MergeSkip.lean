import Verif.Proofs.CPMerge
import Verif.Proofs.Heap
import Mathlib.Data.Multiset.AddSub
import Mathlib.Data.List.Induction

namespace Verif
open Spec MergeCandidate Heap
variable {σ κ : Type} [ListIter σ]

theorem recordOrder : Order Record.less where
  irrefl a := by simp [Record.less]
  trans a b c h1 h2 := by simp [Record.less] at *; omega
  asymm a b h := by simp [Record.less] at *; omega

theorem le_record {a b : Record} : Heap.le Record.less a b ↔ a.position ≤ b.position := by
  simp [Heap.le, Record.less]

/-! ### popping loops -/

/-- Slots `a, a+1, …, a+b-1`. -/
def slots (m : Nat → Record) (a b : Nat) : List Record := (List.range b).map (fun i => m (a + i))

theorem slots_length (m : Nat → Record) (a b : Nat) : (slots m a b).length = b := by simp [slots]

theorem slots_succ (m : Nat → Record) (a b : Nat) : slots m a (b + 1) = m a :: slots m (a + 1) b := by
  simp only [slots, List.range_succ_eq_map, List.map_cons, List.map_map, Nat.add_zero]
  congr 1
  apply List.map_congr_left
  intro i _
  simp only [Function.comp]
  congr 1; omega

theorem slots_congr {m m' : Nat → Record} {a b : Nat} (h : ∀ k, a ≤ k → m k = m' k) :
    slots m a b = slots m' a b := by
  unfold slots
  exact List.map_congr_left (fun i _ => h _ (by omega))

theorem elems_split (m : Nat → Record) (a b : Nat) :
    elems m (a + b) = elems m a + (slots m a b : Multiset Record) := by
  induction b with
  | zero => simp [slots]
  | succ b ih =>
    rw [← Nat.add_assoc, elems_succ, ih]
    simp only [slots, List.range_succ, List.map_append, List.map_cons, List.map_nil]
    rw [← Multiset.coe_add, Multiset.coe_singleton, ← Multiset.singleton_add, Multiset.add_comm,
      Multiset.add_assoc]

theorem mem_slots {m : Nat → Record} {a b : Nat} {r : Record} :
    r ∈ slots m a b ↔ ∃ k, a ≤ k ∧ k < a + b ∧ m k = r := by
  simp only [slots, List.mem_map, List.mem_range]
  constructor
  · rintro ⟨i, hi, rfl⟩; exact ⟨a + i, by omega, by omega, rfl⟩
  · rintro ⟨k, h1, h2, rfl⟩; exact ⟨k - a, by omega, by congr 1; omega⟩

theorem popEqual_spec {tpos : Nat} : ∀ {n : Nat} {mem : Nat → Record}, IsHeap Record.less mem n →
    ∃ m' sz p, popEqual tpos n mem = (m', sz, p) ∧ n = sz + p ∧ IsHeap Record.less m' sz ∧
      PermOn n mem m' ∧ (∀ k, sz ≤ k → k < n → (m' k).position ≤ tpos) ∧
      (∀ k, k < sz → tpos < (m' k).position)
  | 0, mem, h => ⟨mem, 0, 0, rfl, rfl, h, PermOn.refl _ _, fun k _ h => by omega, fun k h => by omega⟩
  | n + 1, mem, h => by
    unfold popEqual
    by_cases hc : tpos ≥ (mem 0).position
    · obtain ⟨h1, h2, h3, -, -⟩ := pop_spec recordOrder h
      obtain ⟨m', sz, p, e0, e1, e2, e3, e4, e5⟩ := popEqual_spec (tpos := tpos) h1
      refine ⟨m', sz, p + 1, by rw [if_pos hc, e0], by omega, e2, h3.trans (e3.mono (by omega)), ?_, e5⟩
      intro k hk1 hk2
      by_cases hk : k < n
      · exact e4 k hk1 hk
      · have : k = n := by omega
        subst this
        rw [e3.outside (Nat.le_refl k), h2]; exact hc
    · refine ⟨mem, n + 1, 0, by rw [if_neg hc], rfl, h, PermOn.refl _ _, fun k _ h => by omega, ?_⟩
      intro k hk
      have := le_record.1 (root_le recordOrder h k hk)
      omega

theorem popMore_spec : ∀ {j n : Nat} {mem : Nat → Record}, IsHeap Record.less mem n →
    ∃ m' sz p, popMore j n mem = (m', sz, p) ∧ n = sz + p ∧ p ≤ j ∧ IsHeap Record.less m' sz ∧
      PermOn n mem m'
  | 0, n, mem, h => ⟨mem, n, 0, by simp [popMore], rfl, Nat.le_refl _, h, PermOn.refl _ _⟩
  | j + 1, 0, mem, h => ⟨mem, 0, 0, rfl, rfl, by omega, h, PermOn.refl _ _⟩
  | j + 1, n + 1, mem, h => by
    obtain ⟨h1, h2, h3, -, -⟩ := pop_spec recordOrder h
    obtain ⟨m', sz, p, e0, e1, e2, e3, e4⟩ := popMore_spec (j := j) h1
    exact ⟨m', sz, p + 1, by simp [popMore, e0], by omega, by omega, e3, h3.trans (e4.mono (by omega))⟩

/-! ### Invariants -/

/-- The iterator stands on `v ≥ lo` and still shows all elements of `l` that are at least `lo`. -/
def ItGood (S : IterSim σ) (s : σ) (l : List Nat) (lo v : Nat) : Prop :=
  ∃ xs, S.Rep s ⟨v :: xs, l.length⟩ ∧ (v :: xs).Pairwise (· < ·) ∧ lo ≤ v ∧
    ∀ q, lo ≤ q → (q ∈ v :: xs ↔ q ∈ l)

theorem ItGood.mem {S : IterSim σ} {s : σ} {l : List Nat} {lo v : Nat} (h : ItGood S s l lo v) : v ∈ l := by
  obtain ⟨xs, -, -, h3, h4⟩ := h
  exact (h4 v h3).1 (by simp)

theorem ItGood.ge {S : IterSim σ} {s : σ} {l : List Nat} {lo v q : Nat} (h : ItGood S s l lo v)
    (hq : lo ≤ q) (hm : q ∈ l) : v ≤ q := by
  obtain ⟨xs, -, h2, -, h4⟩ := h
  rcases List.mem_cons.1 ((h4 q hq).2 hm) with rfl | hx
  · omega
  · have := (List.pairwise_cons.1 h2).1 q hx; omega

theorem ItGood.next {S : IterSim σ} {s : σ} {l : List Nat} {lo v : Nat} (h : ItGood S s l lo v) :
    (∃ w s', ListIter.hasNext s = true ∧ ListIter.next s = (.ok w, s') ∧ ItGood S s' l (v + 1) w) ∨
    (ListIter.hasNext s = false ∧ ∀ q, v + 1 ≤ q → q ∉ l) := by
  obtain ⟨xs, h1, h2, h3, h4⟩ := h
  have hn := S.hasNext h1
  obtain ⟨hx1, hx2⟩ := S.next h1
  cases xs with
  | nil =>
    right
    refine ⟨by rw [hn]; simp [Iter.hasNext], fun q hq hm => ?_⟩
    have := (h4 q (by omega)).2 hm
    simp at this; omega
  | cons y ys =>
    left
    simp only [Iter.next, ofOpt] at hx1 hx2
    have hs := List.pairwise_cons.1 h2
    refine ⟨y, (ListIter.next s).2, by rw [hn]; simp [Iter.hasNext], Prod.ext hx1 rfl, ys, hx2, hs.2, ?_, ?_⟩
    · have := hs.1 y (by simp); omega
    · intro q hq
      rw [← h4 q (by omega), List.mem_cons (b := v)]
      constructor
      · exact .inr
      · rintro (rfl | h)
        · omega
        · exact h

theorem ItGood.skip {S : IterSim σ} {s : σ} {l : List Nat} {lo lo' v : Nat} (h : ItGood S s l lo v)
    (hlo : lo ≤ lo') :
    (∃ w s', ListIter.lowerBound s lo' = (.ok w, s') ∧ ItGood S s' l lo' w) ∨
    (∃ s', ListIter.lowerBound s lo' = (.error .notDereferencable, s') ∧ ∀ q, lo' ≤ q → q ∉ l) := by
  obtain ⟨xs, h1, h2, h3, h4⟩ := h
  obtain ⟨hx1, hx2⟩ := S.lowerBound lo' h1
  simp only [Iter.lowerBound] at hx1 hx2
  have hmem : ∀ q, lo' ≤ q → (q ∈ (v :: xs).dropWhile (· < lo') ↔ q ∈ l) := fun q hq => by
    rw [mem_dropWhile_lt h2 hq, h4 q (by omega)]
  have hp := h2.sublist (List.dropWhile_sublist (fun x => decide (x < lo')))
  cases hd : (v :: xs).dropWhile (· < lo') with
  | nil =>
    right
    rw [hd] at hx1 hx2 hmem
    refine ⟨_, Prod.ext hx1 rfl, fun q hq hm => ?_⟩
    simpa using (hmem q hq).2 hm
  | cons y ys =>
    left
    have hy : lo' ≤ y := by
      have := List.head?_dropWhile_not (fun x => decide (x < lo')) (v :: xs)
      rw [hd] at this
      simpa using this
    rw [hd] at hx1 hx2 hmem hp
    exact ⟨y, _, Prod.ext hx1 rfl, ys, hx2, hp, hy, hmem⟩

/-- Invariant of the re-push loops: heap of records good for `lo'`, pending records good for `lo`,
all other lists have nothing left from `lo'` on. -/
structure J (S : IterSim σ) (ls : List (List Nat)) (lo lo' : Nat) (st : MSState σ) (Pd : List Record) : Prop where
  heap : IsHeap Record.less st.mem st.size
  nodup : ((elems st.mem st.size + (Pd : Multiset Record)).map Record.ridID).Nodup
  hgood : ∀ r ∈ elems st.mem st.size, ∃ s l, st.rid[r.ridID]? = some s ∧ ls[r.ridID]? = some l ∧
    ItGood S s l lo' r.position
  pgood : ∀ r ∈ Pd, ∃ s l, st.rid[r.ridID]? = some s ∧ ls[r.ridID]? = some l ∧
    ItGood S s l lo r.position
  done : ∀ i l, ls[i]? = some l → (∀ r ∈ elems st.mem st.size + (Pd : Multiset Record), r.ridID ≠ i) →
    ∀ q, lo' ≤ q → q ∉ l

theorem J.split {S : IterSim σ} {ls : List (List Nat)} {lo lo' : Nat} {st : MSState σ} {r : Record}
    {Pd : List Record} (h : J S ls lo lo' st (r :: Pd)) :
    (∀ r' ∈ elems st.mem st.size, r'.ridID ≠ r.ridID) ∧ (∀ r' ∈ Pd, r'.ridID ≠ r.ridID) ∧
    ((elems st.mem st.size + (Pd : Multiset Record)).map Record.ridID).Nodup := by
  have hn := h.nodup
  rw [← Multiset.cons_coe, Multiset.add_cons, Multiset.map_cons, Multiset.nodup_cons] at hn
  refine ⟨fun r' hr' he => hn.1 ?_, fun r' hr' he => hn.1 ?_, hn.2⟩
  · exact Multiset.mem_map.2 ⟨r', Multiset.mem_add.2 (.inl hr'), he⟩
  · exact Multiset.mem_map.2 ⟨r', Multiset.mem_add.2 (.inr (by simpa using hr')), he⟩

/-- Finishing one pending record without pushing it back. -/
theorem J.drop {S : IterSim σ} {ls : List (List Nat)} {lo lo' : Nat} {st : MSState σ} {r : Record}
    {Pd : List Record} (h : J S ls lo lo' st (r :: Pd)) {rid' : List σ}
    (hrid : ∀ i, i ≠ r.ridID → rid'[i]? = st.rid[i]?)
    (hdone : ∀ l, ls[r.ridID]? = some l → ∀ q, lo' ≤ q → q ∉ l) :
    J S ls lo lo' { st with rid := rid' } Pd := by
  obtain ⟨h1, h2, h3⟩ := h.split
  refine ⟨h.heap, h3, ?_, ?_, ?_⟩
  · intro r' hr'
    simp only at hr' ⊢
    rw [hrid _ (h1 r' hr')]
    exact h.hgood r' hr'
  · intro r' hr'
    simp only
    rw [hrid _ (h2 r' hr')]
    exact h.pgood r' (by simp [hr'])
  · intro i l hl hni q hq
    by_cases hi : i = r.ridID
    · subst hi; exact hdone l hl q hq
    · refine h.done i l hl (fun r' hr' => ?_) q hq
      rw [← Multiset.cons_coe, Multiset.add_cons, Multiset.mem_cons] at hr'
      rcases hr' with rfl | hr'
      · exact fun h => hi h.symm
      · exact hni r' hr'

/-- Pushing a pending record back with a new position. -/
theorem J.push {S : IterSim σ} {ls : List (List Nat)} {lo lo' : Nat} {st : MSState σ} {r : Record}
    {Pd : List Record} (h : J S ls lo lo' st (r :: Pd)) {rid' : List σ} {v : Nat} {s : σ} {l : List Nat}
    (hrid : ∀ i, i ≠ r.ridID → rid'[i]? = st.rid[i]?) (hs : rid'[r.ridID]? = some s)
    (hl : ls[r.ridID]? = some l) (hg : ItGood S s l lo' v) :
    J S ls lo lo' (msPush { st with rid := rid' } r.ridID v) Pd ∧
    (msPush { st with rid := rid' } r.ridID v).size = st.size + 1 ∧
    ∀ k, st.size + 1 ≤ k → (msPush { st with rid := rid' } r.ridID v).mem k = st.mem k := by
  obtain ⟨h1, h2, h3⟩ := h.split
  obtain ⟨m1, hm1⟩ : ∃ m1, m1 = fun k => if k = st.size then (⟨r.ridID, v⟩ : Record) else st.mem k := ⟨_, rfl⟩
  have hm1s : m1 st.size = ⟨r.ridID, v⟩ := by rw [hm1]; simp
  have hm1o : ∀ k, k ≠ st.size → m1 k = st.mem k := fun k hk => by rw [hm1]; simp [hk]
  have hheap1 : IsHeap Record.less m1 st.size := by
    intro k hk0 hkn hka
    rw [hm1o _ (by omega), hm1o _ (by omega)]
    exact h.heap k hk0 hkn hka
  obtain ⟨p1, p2, p3⟩ := push_spec recordOrder hheap1
  have he : elems m1 st.size = elems st.mem st.size := elems_congr (fun k hk => hm1o k (by omega))
  rw [hm1s, he] at p3
  have hmp : msPush { st with rid := rid' } r.ridID v
      = ⟨Heap.push Record.less m1 st.size, st.size + 1, rid'⟩ := by
    rw [hm1]; rfl
  rw [hmp]
  refine ⟨⟨p1, ?_, ?_, ?_, ?_⟩, rfl, fun k hk => ?_⟩
  · rw [p3, Multiset.cons_add, Multiset.map_cons, Multiset.nodup_cons]
    refine ⟨?_, h3⟩
    intro hm
    obtain ⟨r', hr', he'⟩ := Multiset.mem_map.1 hm
    rcases Multiset.mem_add.1 hr' with hr' | hr'
    · exact h1 r' hr' he'
    · exact h2 r' (by simpa using hr') he'
  · intro r' hr'
    simp only at hr' ⊢
    rw [p3, Multiset.mem_cons] at hr'
    rcases hr' with rfl | hr'
    · exact ⟨s, l, hs, hl, hg⟩
    · rw [hrid _ (h1 r' hr')]
      exact h.hgood r' hr'
  · intro r' hr'
    simp only
    rw [hrid _ (h2 r' hr')]
    exact h.pgood r' (by simp [hr'])
  · intro i l' hl' hni q hq
    simp only at hni
    rw [p3] at hni
    refine h.done i l' hl' (fun r' hr' => ?_) q hq
    rw [← Multiset.cons_coe, Multiset.add_cons, Multiset.mem_cons] at hr'
    rcases hr' with rfl | hr'
    · exact hni ⟨r'.ridID, v⟩ (by simp)
    · exact hni r' (by simp only [Multiset.cons_add, Multiset.mem_cons]; exact .inr hr')
  · simp only
    rw [p2.outside hk, hm1o k (by omega)]

omit [ListIter σ] in
theorem set_get_ne (l : List σ) (i j : Nat) (x : σ) (h : j ≠ i) : (l.set i x)[j]? = l[j]? :=
  List.getElem?_set_ne (fun e => h e.symm)

omit [ListIter σ] in
theorem set_get_self {l : List σ} {i : Nat} {x y : σ} (h : l[i]? = some y) : (l.set i x)[i]? = some x := by
  have : i < l.length := by
    rw [List.getElem?_eq_some_iff] at h; exact h.1
  simp [this]

theorem msAdvance_spec {S : IterSim σ} {ls : List (List Nat)} {lo t : Nat} : ∀ {left index : Nat}
    {st : MSState σ}, J S ls lo (t + 1) st (slots st.mem index left) → st.size ≤ index →
    (∀ r ∈ slots st.mem index left, r.position = t) →
    ∃ st', msAdvance left index st = .ok st' ∧ J S ls lo (t + 1) st' []
  | 0, index, st, h, _, _ => ⟨st, rfl, by simpa [slots] using h⟩
  | left + 1, index, st, h, hsz, ht => by
    rw [slots_succ] at h ht
    have hpos := ht (st.mem index) (by simp)
    obtain ⟨s, l, hs, hl, hg⟩ := h.pgood (st.mem index) (by simp)
    unfold msAdvance
    simp only [hs]
    rcases hg.next with ⟨w, s', hn, hx, hg'⟩ | ⟨hn, hno⟩
    · rw [if_pos hn, hx]
      simp only
      rw [hpos] at hg'
      obtain ⟨e1, e2, e3⟩ := h.push (rid' := st.rid.set (st.mem index).ridID s')
        (fun i hi => set_get_ne _ _ _ _ hi) (set_get_self hs) hl hg'
      obtain ⟨st2, hst2⟩ : ∃ st2, st2 = msPush { st with rid := st.rid.set (st.mem index).ridID s' } (st.mem index).ridID w := ⟨_, rfl⟩
      rw [← hst2] at e1 e2 e3 ⊢
      have hslots : slots st.mem (index + 1) left = slots st2.mem (index + 1) left :=
        slots_congr (fun k hk => (e3 k (by omega)).symm)
      exact msAdvance_spec (by rw [← hslots]; exact e1) (by omega)
        (by rw [← hslots]; exact fun r hr => ht r (by simp [hr]))
    · rw [if_neg (by rw [hn]; simp)]
      rw [hpos] at hno
      have e1 := h.drop (rid' := st.rid) (fun _ _ => rfl) (fun l' hl' q hq => by
        rw [hl] at hl'; cases hl'; exact hno q hq)
      exact msAdvance_spec (index := index + 1) e1 (by omega) (fun r hr => ht r (by simp [hr]))

theorem msSkip_spec {S : IterSim σ} {ls : List (List Nat)} {lo lo' : Nat} (hlo : lo ≤ lo') : ∀ {left index : Nat}
    {st : MSState σ}, J S ls lo lo' st (slots st.mem index left) → st.size ≤ index →
    ∃ st', msSkip lo' left index st = .ok st' ∧ J S ls lo lo' st' []
  | 0, index, st, h, _ => ⟨st, rfl, by simpa [slots] using h⟩
  | left + 1, index, st, h, hsz => by
    rw [slots_succ] at h
    obtain ⟨s, l, hs, hl, hg⟩ := h.pgood (st.mem index) (by simp)
    have hlen : ListIter.len s ≠ 0 := by
      have hm := hg.mem
      obtain ⟨xs, h1, -⟩ := hg
      rw [S.len h1]
      simp only
      intro h0
      rw [List.length_eq_zero_iff.1 h0] at hm
      simp at hm
    unfold msSkip
    simp only [hs]
    rw [if_neg hlen]
    rcases hg.skip hlo with ⟨w, s', hx, hg'⟩ | ⟨s', hx, hno⟩
    · rw [hx]
      simp only
      obtain ⟨e1, e2, e3⟩ := h.push (rid' := st.rid.set (st.mem index).ridID s')
        (fun i hi => set_get_ne _ _ _ _ hi) (set_get_self hs) hl hg'
      obtain ⟨st2, hst2⟩ : ∃ st2, st2 = msPush { st with rid := st.rid.set (st.mem index).ridID s' } (st.mem index).ridID w := ⟨_, rfl⟩
      rw [← hst2] at e1 e2 e3 ⊢
      have hslots : slots st.mem (index + 1) left = slots st2.mem (index + 1) left :=
        slots_congr (fun k hk => (e3 k (by omega)).symm)
      exact msSkip_spec hlo (by rw [← hslots]; exact e1) (by omega)
    · rw [hx]
      simp only
      have e1 := h.drop (rid' := st.rid.set (st.mem index).ridID s')
        (fun i hi => set_get_ne _ _ _ _ hi) (fun l' hl' q hq => by
        rw [hl] at hl'; cases hl'; exact hno q hq)
      exact msSkip_spec hlo (index := index + 1) e1 (by simp only; omega)

/-! ### counting -/

theorem occurrences_eq_range (ls : List (List Nat)) (p : Nat) :
    occurrences ls p = ((List.range ls.length).filter (fun i => p ∈ ls[i]?.getD [])).length := by
  induction ls using List.reverseRec with
  | nil => rfl
  | append_singleton ls l ih =>
    rw [occurrences_append, ih, List.length_append, List.length_singleton, List.range_succ,
      List.filter_append, List.length_append]
    congr 1
    · congr 1
      apply List.filter_congr
      intro i hi
      have : i < ls.length := List.mem_range.1 hi
      rw [List.getElem?_append_left this]
    · simp [occurrences, List.filter_cons]
      split <;> rfl

theorem occurrences_le_of {ls : List (List Nat)} {p : Nat} {I : List Nat}
    (h : ∀ i l, ls[i]? = some l → p ∈ l → i ∈ I) : occurrences ls p ≤ I.length := by
  rw [occurrences_eq_range]
  apply List.Subperm.length_le
  apply List.Nodup.subperm (List.nodup_range.filter _)
  intro i hi
  simp only [List.mem_filter, List.mem_range, decide_eq_true_eq] at hi
  have hs : ls[i]? = some ls[i] := List.getElem?_eq_getElem hi.1
  rw [hs] at hi
  exact h i _ hs hi.2

theorem occurrences_eq_of {ls : List (List Nat)} {p : Nat} {I : List Nat} (hn : I.Nodup)
    (h : ∀ i, i ∈ I ↔ ∃ l, ls[i]? = some l ∧ p ∈ l) : occurrences ls p = I.length := by
  apply Nat.le_antisymm
  · exact occurrences_le_of (fun i l h1 h2 => (h i).2 ⟨l, h1, h2⟩)
  · rw [occurrences_eq_range]
    apply List.Subperm.length_le
    apply List.Nodup.subperm hn
    intro i hi
    obtain ⟨l, h1, h2⟩ := (h i).1 hi
    have hlt : i < ls.length := by
      rw [List.getElem?_eq_some_iff] at h1; exact h1.1
    simp only [List.mem_filter, List.mem_range, decide_eq_true_eq]
    exact ⟨hlt, by rw [h1]; exact h2⟩

/-! ### main loop -/

/-- Number of list elements that are at least `lo`. -/
def todo (ls : List (List Nat)) (lo : Nat) : Nat := (ls.flatten.filter (fun q => lo ≤ q)).length

theorem todo_lt {ls : List (List Nat)} {lo lo' t i : Nat} {l : List Nat} (hl : ls[i]? = some l)
    (ht : t ∈ l) (h1 : lo ≤ t) (h2 : t < lo') : todo ls lo' < todo ls lo := by
  have : ls.flatten.filter (fun q => decide (lo' ≤ q))
      = (ls.flatten.filter (fun q => decide (lo ≤ q))).filter (fun q => decide (lo' ≤ q)) := by
    rw [List.filter_filter]
    apply List.filter_congr
    intro x _
    simp; omega
  unfold todo
  rw [this, List.length_filter_lt_length_iff_exists]
  refine ⟨t, ?_, by simp; omega⟩
  rw [List.mem_filter]
  exact ⟨List.mem_flatten.2 ⟨l, List.mem_of_getElem? hl, ht⟩, by simpa using h1⟩

/-- The part of the answer from position `lo` on. -/
structure IsTOccFrom (ls : List (List Nat)) (T lo : Nat) (out : List (Nat × Nat)) : Prop where
  ascending : out.Pairwise (fun a b => a.1 < b.1)
  exact : ∀ p c, (p, c) ∈ out ↔ c = occurrences ls p ∧ T ≤ c ∧ 0 < c ∧ lo ≤ p

/-- Change of the bound of all records that are already beyond the new one. -/
theorem ItGood.raise {S : IterSim σ} {s : σ} {l : List Nat} {lo lo' v : Nat} (h : ItGood S s l lo v)
    (h1 : lo ≤ lo') (h2 : lo' ≤ v) : ItGood S s l lo' v := by
  obtain ⟨xs, a, b, c, d⟩ := h
  exact ⟨xs, a, b, h2, fun q hq => d q (by omega)⟩

/-- Popped records become pending. -/
theorem J.toPending {S : IterSim σ} {ls : List (List Nat)} {lo lo' : Nat} {st : MSState σ} {m' : Nat → Record}
    {sz p : Nat} (h : J S ls lo lo st []) (hn : st.size = sz + p) (hp : PermOn st.size st.mem m')
    (hheap : IsHeap Record.less m' sz) (hlo : lo ≤ lo')
    (hbig : ∀ k, k < sz → lo' ≤ (m' k).position) :
    J S ls lo lo' { st with mem := m', size := sz } (slots m' sz p) := by
  have hel : elems st.mem st.size = elems m' sz + (slots m' sz p : Multiset Record) := by
    rw [← hp.elems_eq, hn, elems_split]
  have h0 := h.nodup
  have hd := h.done
  simp only [Multiset.coe_nil, Multiset.add_zero] at h0 hd
  rw [hel] at h0 hd
  refine ⟨hheap, h0, ?_, ?_, fun i l hl hni q hq => hd i l hl hni q (by omega)⟩
  · intro r hr
    obtain ⟨s, l, a, b, c⟩ := h.hgood r (by rw [hel]; exact Multiset.mem_add.2 (.inl hr))
    obtain ⟨k, hk, rfl⟩ := mem_elems.1 hr
    exact ⟨s, l, a, b, c.raise hlo (hbig k hk)⟩
  · intro r hr
    exact h.hgood r (by rw [hel]; exact Multiset.mem_add.2 (.inr (by simpa using hr)))

theorem msLoop_eq (S : IterSim σ) (collect : κ → MergeCandidate → κ × CollectRes Err)
    {ls : List (List Nat)} {T : Nat} : ∀ {fuel lo : Nat} {st : MSState σ} {k : κ},
    todo ls lo ≤ fuel → J S ls lo lo st [] →
    ∃ out, IsTOccFrom ls T lo out ∧ msLoop collect T fuel st k = feed collect k (out.map pk) := by
  intro fuel
  induction fuel with
  | zero =>
    intro lo st k hf h
    have hsz : st.size = 0 := by
      by_contra hne
      obtain ⟨s, l, h1, h2, h3⟩ := h.hgood (st.mem 0) (mem_elems.2 ⟨0, by omega, rfl⟩)
      have hm := h3.mem
      obtain ⟨xs, -, -, h4, -⟩ := h3
      have := todo_lt h2 hm h4 (Nat.lt_succ_self _)
      omega
    refine ⟨[], ⟨by simp, fun p c => ⟨by simp, ?_⟩⟩, by simp [msLoop, hsz, feed]⟩
    rintro ⟨rfl, -, h0, hlo⟩
    have : occurrences ls p ≤ ([] : List Nat).length := occurrences_le_of (fun i l hl hm => by
      exact absurd hm (h.done i l hl (by simp [hsz, elems]) p hlo))
    simp at this; omega
  | succ f ih =>
    intro lo st k hf h
    by_cases hsz : st.size > 0
    · unfold msLoop
      rw [if_pos hsz]
      -- the top element
      obtain ⟨t, htdef⟩ : ∃ t, t = (st.mem 0).position := ⟨_, rfl⟩
      obtain ⟨s0, l0, a1, a2, a3⟩ := h.hgood (st.mem 0) (mem_elems.2 ⟨0, hsz, rfl⟩)
      have hlot : lo ≤ t := by obtain ⟨xs, -, -, h4, -⟩ := a3; omega
      have htl0 : t ∈ l0 := by rw [htdef]; exact a3.mem
      have hmin : ∀ r ∈ elems st.mem st.size, t ≤ r.position := by
        intro r hr
        obtain ⟨q, hq, rfl⟩ := mem_elems.1 hr
        rw [htdef]
        exact le_record.1 (root_le recordOrder h.heap q hq)
      -- every list containing some q ≥ lo has a record standing at most at q
      have hrec : ∀ i l q, ls[i]? = some l → lo ≤ q → q ∈ l →
          ∃ r ∈ elems st.mem st.size, r.ridID = i ∧ r.position ≤ q := by
        intro i l q hl hq hm
        by_contra hcon
        refine h.done i l hl (fun r hr he => hcon ⟨r, ?_, he, ?_⟩) q hq hm
        · simpa using hr
        · obtain ⟨s, l', b1, b2, b3⟩ := h.hgood r (by simpa using hr)
          rw [he, hl] at b2
          cases b2
          exact b3.ge hq hm
      obtain ⟨m1, sz1, p1, e0, e1, e2, e3, e4, e5⟩ := popEqual_spec (tpos := t) h.heap
      simp only [← htdef, e0]
      have hel1 : elems st.mem st.size = elems m1 sz1 + (slots m1 sz1 p1 : Multiset Record) := by
        rw [← e3.elems_eq, e1, elems_split]
      have hnod : ((slots m1 sz1 p1).map Record.ridID).Nodup := by
        have := h.nodup
        simp only [Multiset.coe_nil, Multiset.add_zero] at this
        rw [hel1, Multiset.map_add] at this
        have := (Multiset.nodup_add.1 this).2.1
        simpa using this
      have hpt : ∀ r ∈ slots m1 sz1 p1, r.position = t := by
        intro r hr
        have h1 := hmin r (by rw [hel1]; exact Multiset.mem_add.2 (.inr (by simpa using hr)))
        obtain ⟨k', hk1, hk2, rfl⟩ := mem_slots.1 hr
        have := e4 k' hk1 (by omega)
        omega
      -- the number of popped records is the number of lists containing t
      have hcount : occurrences ls t = p1 := by
        have : occurrences ls t = ((slots m1 sz1 p1).map Record.ridID).length := by
          apply occurrences_eq_of hnod
          intro i
          rw [List.mem_map]
          constructor
          · rintro ⟨r, hr, rfl⟩
            obtain ⟨s, l, b1, b2, b3⟩ := h.hgood r (by
              rw [hel1]; exact Multiset.mem_add.2 (.inr (by simpa using hr)))
            refine ⟨l, b2, ?_⟩
            rw [← hpt r hr]; exact b3.mem
          · rintro ⟨l, hl, hm⟩
            obtain ⟨r, hr, hid, hle⟩ := hrec i l t hl hlot hm
            rw [hel1, Multiset.mem_add] at hr
            rcases hr with hr | hr
            · obtain ⟨q, hq, rfl⟩ := mem_elems.1 hr
              have := e5 q hq; omega
            · exact ⟨r, by simpa using hr, hid⟩
        rw [this, List.length_map, slots_length]
      have hp1 : 0 < p1 := by
        rw [← hcount]
        have h1 : t ∈ l0 := htl0
        unfold occurrences
        rw [List.length_pos_iff_exists_mem]
        exact ⟨l0, List.mem_filter.2 ⟨List.mem_of_getElem? a2, by simpa using h1⟩⟩
      by_cases hT : p1 ≥ T
      · rw [if_pos hT]
        have hJ : J S ls lo (t + 1) { st with mem := m1, size := sz1 } (slots m1 sz1 p1) :=
          h.toPending e1 e3 e2 (by omega) (fun k' hk' => e5 k' hk')
        obtain ⟨st', f1, f2⟩ := msAdvance_spec (left := p1) (index := sz1)
          (st := { st with mem := m1, size := sz1 }) hJ (Nat.le_refl _) hpt
        have f2' : J S ls (t + 1) (t + 1) st' [] :=
          ⟨f2.heap, f2.nodup, f2.hgood, by simp, f2.done⟩
        have htodo : todo ls (t + 1) < todo ls lo := todo_lt a2 htl0 hlot (by omega)
        have key : ∀ out', IsTOccFrom ls T (t + 1) out' → IsTOccFrom ls T lo ((t, p1) :: out') := by
          intro out' ho
          refine ⟨?_, fun p c => ?_⟩
          · rw [List.pairwise_cons]
            refine ⟨fun x hx => ?_, ho.ascending⟩
            have := (ho.exact x.1 x.2).1 hx
            simp only; omega
          · rw [List.mem_cons, ho.exact]
            constructor
            · rintro (h' | ⟨rfl, b, c, d⟩)
              · simp only [Prod.mk.injEq] at h'
                obtain ⟨rfl, rfl⟩ := h'
                exact ⟨hcount.symm, hT, hp1, hlot⟩
              · exact ⟨rfl, b, c, by omega⟩
            · rintro ⟨rfl, b, c, d⟩
              by_cases hpt' : p = t
              · subst hpt'; left; rw [hcount]
              · right
                refine ⟨rfl, b, c, ?_⟩
                by_contra hlt
                have : occurrences ls p ≤ ([] : List Nat).length := occurrences_le_of (fun i l hl hm => by
                  exfalso
                  obtain ⟨r, hr, -, hle⟩ := hrec i l p hl d hm
                  have := hmin r hr
                  omega)
                simp at this; omega
        obtain ⟨out', g1, g2⟩ := ih (lo := t + 1) (st := st') (k := (collect k (pk (t, p1))).1) (by omega) f2'
        refine ⟨(t, p1) :: out', key out' g1, ?_⟩
        rw [List.map_cons, feed, show MergeCandidate.new t p1 = pk (t, p1) from rfl]
        rcases hcol : collect k (pk (t, p1)) with ⟨k', _ | _ | e⟩
        · rw [hcol] at g2
          simp only [f1]
          exact g2
        · rfl
        · rfl
      · rw [if_neg hT]
        obtain ⟨m2, sz2, p2, d0, d1, d2, d3, d4⟩ := popMore_spec (j := T - 1 - p1) e2
        simp only [d0]
        have hn2 : st.size = sz2 + (p1 + p2) := by omega
        have hperm2 : PermOn st.size st.mem m2 := e3.trans (d4.mono (by omega))
        have hel2 : elems st.mem st.size = elems m2 sz2 + (slots m2 sz2 (p1 + p2) : Multiset Record) := by
          rw [← hperm2.elems_eq, hn2, elems_split]
        by_cases hz : sz2 = 0
        · rw [if_pos hz]
          refine ⟨[], ⟨by simp, fun p c => ⟨by simp, ?_⟩⟩, rfl⟩
          rintro ⟨rfl, hTc, h0, hlo⟩
          have : occurrences ls p ≤ ((slots m2 sz2 (p1 + p2)).map Record.ridID).length :=
            occurrences_le_of (fun i l hl hm => by
              obtain ⟨r, hr, hid, -⟩ := hrec i l p hl hlo hm
              rw [hel2, hz, Multiset.mem_add] at hr
              rcases hr with hr | hr
              · simp [elems] at hr
              · rw [hz]; exact List.mem_map.2 ⟨r, by simpa using hr, hid⟩)
          rw [List.length_map, slots_length] at this
          omega
        · rw [if_neg hz]
          obtain ⟨top, htop⟩ : ∃ top, top = (m2 0).position := ⟨_, rfl⟩
          have hbig : ∀ k', k' < sz2 → top ≤ (m2 k').position := fun k' hk' => by
            rw [htop]; exact le_record.1 (root_le recordOrder d3 k' hk')
          have htt : t < top := by
            have hm2 : m2 0 ∈ elems m1 sz1 := by
              rw [← d4.elems_eq]; exact mem_elems.2 ⟨0, by omega, rfl⟩
            obtain ⟨q, hq, he⟩ := mem_elems.1 hm2
            rw [htop, ← he]
            exact e5 q hq
          have hJ : J S ls lo top { st with mem := m2, size := sz2 } (slots m2 sz2 (p1 + p2)) :=
            h.toPending hn2 hperm2 d3 (by omega) hbig
          obtain ⟨st', f1, f2⟩ := msSkip_spec (show lo ≤ top by omega) (left := p1 + p2) (index := sz2)
            (st := { st with mem := m2, size := sz2 }) hJ (Nat.le_refl _)
          have f2' : J S ls top top st' [] :=
            ⟨f2.heap, f2.nodup, f2.hgood, by simp, f2.done⟩
          have htodo : todo ls top < todo ls lo := todo_lt a2 htl0 hlot htt
          obtain ⟨out', g1, g2⟩ := ih (lo := top) (st := st') (k := k) (by omega) f2'
          rw [← htop, f1]
          refine ⟨out', ⟨g1.ascending, fun p c => ?_⟩, g2⟩
          rw [g1.exact]
          constructor
          · rintro ⟨a, b, c', d⟩; exact ⟨a, b, c', by omega⟩
          · rintro ⟨rfl, hTc, h0, hlo⟩
            refine ⟨rfl, hTc, h0, ?_⟩
            by_contra hlt
            have : occurrences ls p ≤ ((slots m2 sz2 (p1 + p2)).map Record.ridID).length :=
              occurrences_le_of (fun i l hl hm => by
                obtain ⟨r, hr, hid, hle⟩ := hrec i l p hl hlo hm
                rw [hel2, Multiset.mem_add] at hr
                rcases hr with hr | hr
                · obtain ⟨q, hq, rfl⟩ := mem_elems.1 hr
                  have := hbig q hq; omega
                · exact List.mem_map.2 ⟨r, by simpa using hr, hid⟩)
            rw [List.length_map, slots_length] at this
            omega
    · have hsz0 : st.size = 0 := by omega
      refine ⟨[], ⟨by simp, fun p c => ⟨by simp, ?_⟩⟩, by simp [msLoop, hsz0, feed]⟩
      rintro ⟨rfl, -, h0, hlo⟩
      have : occurrences ls p ≤ ([] : List Nat).length := occurrences_le_of (fun i l hl hm => by
        exact absurd hm (h.done i l hl (by simp [hsz0, elems]) p hlo))
      simp at this; omega

/-! ### start -/

theorem msInit_spec (S : IterSim σ) : ∀ {rid : List σ} {ls : List (List Nat)} {i : Nat} {mem : Nat → Record},
    List.Forall₂ (fun s l => S.Rep s (Iter.start l)) rid ls → (∀ l ∈ ls, l ≠ []) →
    i + rid.length ≤ 2 ^ 32 →
    ∃ m, msInit i rid mem = .ok m ∧ (∀ k, k < i → m k = mem k) ∧
      ∀ j l, ls[j]? = some l → ∃ x xs, l = x :: xs ∧ m (i + j) = ⟨i + j, x⟩ := by
  intro rid ls i mem h
  induction h generalizing i mem with
  | nil => intro _ _; exact ⟨mem, rfl, fun _ _ => rfl, by simp⟩
  | @cons s l rid ls hr hrest ih =>
    intro hne hlen
    simp only [List.length_cons] at hlen
    have hl : l ≠ [] := hne l (by simp)
    obtain ⟨x, xs, rfl⟩ : ∃ x xs, l = x :: xs := by cases l <;> simp_all
    have hget : ListIter.get s = .ok x := by rw [S.get hr]; rfl
    obtain ⟨m, e1, e2, e3⟩ := ih (i := i + 1) (mem := fun k => if k = i then ⟨u32 i, x⟩ else mem k)
      (fun l' hl' => hne l' (by simp [hl'])) (by omega)
    refine ⟨m, by simp [msInit, hget, e1], fun k hk => ?_, ?_⟩
    · rw [e2 k (by omega)]; simp; omega
    · intro j l' hj
      cases j with
      | zero =>
        simp at hj
        refine ⟨x, xs, hj.symm, ?_⟩
        rw [Nat.add_zero, e2 i (by omega)]
        simp [u32]; omega
      | succ j =>
        simp at hj
        obtain ⟨y, ys, h1, h2⟩ := e3 j l' hj
        exact ⟨y, ys, h1, by rw [show i + (j + 1) = i + 1 + j by omega]; exact h2⟩

omit [ListIter σ] in
theorem forall₂_getElem? {R : σ → List Nat → Prop} {rid : List σ} {ls : List (List Nat)}
    (h : List.Forall₂ R rid ls) {i : Nat} {l : List Nat} (hl : ls[i]? = some l) :
    ∃ s, rid[i]? = some s ∧ R s l := by
  induction h generalizing i with
  | nil => simp at hl
  | @cons s l' rid ls hr hrest ih =>
    cases i with
    | zero => simp at hl; subst hl; exact ⟨s, rfl, hr⟩
    | succ i => simp at hl; simpa using ih hl

theorem sum_len (S : IterSim σ) {rid : List σ} {ls : List (List Nat)}
    (h : List.Forall₂ (fun s l => S.Rep s (Iter.start l)) rid ls) :
    (rid.map ListIter.len).sum = ls.flatten.length := by
  induction h with
  | nil => rfl
  | @cons s l rid ls hr hrest ih =>
    simp only [List.map_cons, List.sum_cons, ih, List.flatten_cons, List.length_append]
    rw [S.len hr]; rfl

theorem mergeSkipMerge_eq (S : IterSim σ) (collect : κ → MergeCandidate → κ × CollectRes Err)
    {rid : List σ} {ls : List (List Nat)} (T : Nat) (k : κ)
    (h : List.Forall₂ (fun s l => S.Rep s (Iter.start l)) rid ls) (hg : ∀ l ∈ ls, GoodList l)
    (hne : ∀ l ∈ ls, l ≠ []) (hn : ls.length ≤ 2 ^ 32) :
    ∃ out, IsTOcc ls T out ∧ mergeSkipMerge collect rid T k = feed collect k (out.map pk) := by
  have hlen : rid.length = ls.length := h.length_eq
  obtain ⟨m, e1, -, e3⟩ := msInit_spec S (i := 0) (mem := fun _ => ⟨0, 0⟩) h hne (by omega)
  simp only [Nat.zero_add] at e3
  obtain ⟨h1, h2⟩ := init_spec recordOrder m rid.length
  have hslot : ∀ r, r ∈ elems (Heap.init Record.less m rid.length) rid.length → ∃ l x xs,
      ls[r.ridID]? = some l ∧ l = x :: xs ∧ r.position = x ∧ r.ridID < rid.length := by
    intro r hr
    rw [h2.elems_eq] at hr
    obtain ⟨q, hq, rfl⟩ := mem_elems.1 hr
    obtain ⟨x, xs, a, b⟩ := e3 q (ls[q]'(by omega)) (List.getElem?_eq_getElem (by omega))
    rw [b]
    exact ⟨_, x, xs, List.getElem?_eq_getElem (show q < ls.length by omega), a, rfl, hq⟩
  have hids : (elems (Heap.init Record.less m rid.length) rid.length).map Record.ridID
      = Multiset.range rid.length := by
    rw [h2.elems_eq]
    unfold elems
    rw [Multiset.map_map]
    conv => rhs; rw [← Multiset.map_id (Multiset.range rid.length)]
    apply Multiset.map_congr rfl
    intro q hq
    have hq := Multiset.mem_range.1 hq
    obtain ⟨x, xs, a, b⟩ := e3 q (ls[q]'(by omega)) (List.getElem?_eq_getElem (by omega))
    simp [b]
  have hJ : J S ls 0 0 ⟨Heap.init Record.less m rid.length, rid.length, rid⟩ [] := by
    refine ⟨h1, ?_, ?_, by simp, ?_⟩
    · simp only [Multiset.coe_nil, Multiset.add_zero]
      rw [hids]; exact Multiset.nodup_range _
    · intro r hr
      obtain ⟨l, x, xs, a, rfl, c, d⟩ := hslot r hr
      obtain ⟨s, s1, s2⟩ := forall₂_getElem? h a
      have hgl := hg _ (List.mem_of_getElem? a)
      exact ⟨s, _, s1, a, xs, by rw [c]; exact s2, by rw [c]; exact hgl.1, Nat.zero_le _,
        fun q _ => by rw [c]⟩
    · intro i l hl hni q _ hq
      have hi : i < rid.length := by
        rw [List.getElem?_eq_some_iff] at hl; obtain ⟨hh, -⟩ := hl; omega
      have : i ∈ (elems (Heap.init Record.less m rid.length) rid.length).map Record.ridID := by
        rw [hids]; exact Multiset.mem_range.2 hi
      obtain ⟨r, hr, he⟩ := Multiset.mem_map.1 this
      exact hni r (by simpa using hr) he
  obtain ⟨out, o1, o2⟩ := msLoop_eq S collect (T := T) (fuel := (rid.map ListIter.len).sum + 1) (k := k) (by
    rw [sum_len S h]
    unfold todo
    have := List.length_filter_le (fun q => decide (0 ≤ q)) ls.flatten
    omega) hJ
  refine ⟨out, ⟨o1.ascending, fun p c => ?_⟩, ?_⟩
  · rw [o1.exact]; simp
  · unfold mergeSkipMerge
    rw [e1]
    exact o2

end Verif
