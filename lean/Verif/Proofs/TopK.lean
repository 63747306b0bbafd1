import Verif.Model.TopK
import Verif.Proofs.Heap
import Mathlib.Data.Multiset.Basic

namespace Verif
open Spec Heap
variable {S : Type} [LinearOrder S]

theorem betterEq_iff {a b : Candidate S} : a.betterEq b = true ↔
    b.score < a.score ∨ (a.score = b.score ∧ a.key ≤ b.key) := by
  simp [Candidate.betterEq]

theorem betterEq_trans (a b c : Candidate S) (h1 : a.betterEq b = true) (h2 : b.betterEq c = true) :
    a.betterEq c = true := by
  rw [betterEq_iff] at *
  rcases h1 with h1 | ⟨h1, h1'⟩ <;> rcases h2 with h2 | ⟨h2, h2'⟩
  · exact .inl (lt_trans h2 h1)
  · exact .inl (h2 ▸ h1)
  · exact .inl (h1 ▸ h2)
  · exact .inr ⟨h1.trans h2, by omega⟩

theorem betterEq_total (a b : Candidate S) : (a.betterEq b || b.betterEq a) = true := by
  rw [Bool.or_eq_true, betterEq_iff, betterEq_iff]
  rcases lt_trichotomy a.score b.score with h | h | h
  · exact .inr (.inl h)
  · rcases Nat.le_total a.key b.key with h' | h'
    · exact .inl (.inr ⟨h, h'⟩)
    · exact .inr (.inr ⟨h.symm, h'⟩)
  · exact .inl (.inl h)

theorem betterEq_antisymm {a b : Candidate S} (h1 : a.betterEq b = true) (h2 : b.betterEq a = true) : a = b := by
  rw [betterEq_iff] at *
  have hs : a.score = b.score := by
    rcases h1 with h1 | ⟨h1, _⟩
    · rcases h2 with h2 | ⟨h2, _⟩
      · exact absurd (lt_trans h1 h2) (lt_irrefl _)
      · exact h2.symm
    · exact h1
  have hk : a.key = b.key := by
    rcases h1 with h1 | ⟨_, h1⟩
    · rw [hs] at h1; exact absurd h1 (lt_irrefl _)
    · rcases h2 with h2 | ⟨_, h2⟩
      · rw [hs] at h2; exact absurd h2 (lt_irrefl _)
      · omega
  cases a; cases b; simp_all

theorem le_candLess {a b : Candidate S} : Heap.le candLess a b ↔ b.betterEq a = true := by
  unfold Heap.le candLess
  rw [betterEq_iff]
  by_cases h : b.score = a.score
  · simp [h]
  · simp only [h, if_false, decide_eq_false_iff_not, not_lt, false_and, or_false]
    exact ⟨fun h' => lt_of_le_of_ne h' (fun e => h e.symm), le_of_lt⟩

theorem candOrder : Order (candLess (S := S)) where
  irrefl a := le_candLess.2 (betterEq_iff.2 (.inr ⟨rfl, Nat.le_refl _⟩))
  trans a b c h1 h2 := by
    have h1' := le_candLess.1 (show Heap.le candLess b a from h1)
    have h2' := le_candLess.1 (show Heap.le candLess c b from h2)
    exact le_candLess.2 (betterEq_trans _ _ _ h1' h2')
  asymm a b h := by
    have h' : ¬ Heap.le candLess b a := by unfold Heap.le; simp [h]
    rw [le_candLess] at h'
    have := betterEq_total a b
    simp only [h', Bool.false_or] at this
    exact le_candLess.2 this

/-- Sorted from best to worst. -/
abbrev BestFirst (l : List (Candidate S)) : Prop := l.Pairwise (fun a b => a.betterEq b = true)

/-- Uniqueness of the k best. -/
theorem best_unique {K : Nat} {l R rest : List (Candidate S)} (hs : BestFirst R) (hp : (R ++ rest).Perm l)
    (hb : ∀ r ∈ R, ∀ x ∈ rest, r.betterEq x = true) (hk : R.length = min K l.length) : R = best K l := by
  have hrest := List.pairwise_mergeSort (le := Candidate.betterEq) betterEq_trans betterEq_total rest
  have hall : BestFirst (R ++ rest.mergeSort Candidate.betterEq) := by
    rw [BestFirst, List.pairwise_append]
    exact ⟨hs, hrest, fun r hr x hx => hb r hr x ((List.mergeSort_perm rest _).subset hx)⟩
  have hl := List.pairwise_mergeSort (le := Candidate.betterEq) betterEq_trans betterEq_total l
  have hperm : (R ++ rest.mergeSort Candidate.betterEq).Perm (l.mergeSort Candidate.betterEq) :=
    ((List.Perm.append_left R (List.mergeSort_perm rest _)).trans hp).trans (List.mergeSort_perm l _).symm
  have heq := List.Perm.eq_of_pairwise (le := fun a b : Candidate S => a.betterEq b = true)
    (fun a b _ _ h1 h2 => betterEq_antisymm h1 h2) hall hl hperm
  unfold best
  rw [← heq]
  rcases Nat.le_total K l.length with h | h
  · rw [List.take_append_of_le_length (by omega), List.take_of_length_le (by omega)]
  · have hlen := hp.length_eq
    simp only [List.length_append] at hlen
    have : rest = [] := List.eq_nil_of_length_eq_zero (by omega)
    subst this
    simp [List.take_of_length_le (show R.length ≤ K by omega)]

theorem best_bestFirst (K : Nat) (l : List (Candidate S)) : BestFirst (best K l) :=
  (List.pairwise_mergeSort (le := Candidate.betterEq) betterEq_trans betterEq_total l).sublist (List.take_sublist _ _)

theorem best_perm {K : Nat} {l l' : List (Candidate S)} (h : l.Perm l') : best K l = best K l' := by
  unfold best
  congr 1
  exact List.Perm.eq_of_pairwise (le := fun a b : Candidate S => a.betterEq b = true)
    (fun a b _ _ h1 h2 => betterEq_antisymm h1 h2)
    (List.pairwise_mergeSort betterEq_trans betterEq_total l)
    (List.pairwise_mergeSort betterEq_trans betterEq_total l')
    (((List.mergeSort_perm l _).trans h).trans (List.mergeSort_perm l' _).symm)

theorem best_length (K : Nat) (l : List (Candidate S)) : (best K l).length = min K l.length := by
  simp [best]

/-- The split of `l` at the `K` best. -/
theorem best_split (K : Nat) (l : List (Candidate S)) : ∃ rest, (best K l ++ rest).Perm l ∧
    ∀ r ∈ best K l, ∀ x ∈ rest, r.betterEq x = true := by
  have h := List.pairwise_mergeSort (le := Candidate.betterEq) betterEq_trans betterEq_total l
  refine ⟨(l.mergeSort Candidate.betterEq).drop K, ?_, ?_⟩
  · unfold best; rw [List.take_append_drop]; exact List.mergeSort_perm _ _
  · rw [← List.take_append_drop K (l.mergeSort _), List.pairwise_append] at h
    exact h.2.2

/-- Taking the best of a part first loses nothing. -/
theorem best_append_best {K K' : Nat} (hK : K ≤ K') (l l' : List (Candidate S)) :
    best K (l ++ best K' l') = best K (l ++ l') := by
  obtain ⟨rest', hp', hb'⟩ := best_split K' l'
  obtain ⟨rest, hp, hb⟩ := best_split K (l ++ best K' l')
  refine best_unique (rest := rest ++ rest') (best_bestFirst _ _) ?_ ?_ ?_
  · rw [← List.append_assoc]
    refine (List.Perm.append_right rest' hp).trans ?_
    rw [List.append_assoc]
    exact List.Perm.append_left l hp'
  · intro r hr x hx
    rcases List.mem_append.1 hx with hx | hx
    · exact hb r hr x hx
    · -- `x` was cut from `l'`, so `best K' l'` has at least `K` elements better than `x`
      by_contra hc
      -- all elements of `best K' l'` are better than x, r is worse than x: all of them precede r
      have hx' : ∀ y ∈ best K' l', y.betterEq x = true := fun y hy => hb' y hy x hx
      have hlt : K' < l'.length := by
        have h1 := hp'.length_eq
        have h2 := best_length K' l'
        have h3 := List.length_pos_of_mem hx
        simp only [List.length_append] at h1
        omega
      -- r occurs in best K and is strictly worse than each of the K' elements of best K' l'
      have hrx : x.betterEq r = true := by
        have := betterEq_total r x
        simpa [hc] using this
      have hne : ∀ y ∈ best K' l', ¬ r.betterEq y = true := fun y hy h =>
        hc (betterEq_trans _ _ _ h (hx' y hy))
      have hsub : ∀ y ∈ best K' l', y ∈ best K (l ++ best K' l') ∧ y ≠ r := by
        intro y hy
        have hmem : y ∈ best K (l ++ best K' l') ++ rest :=
          hp.symm.subset (List.mem_append_right _ hy)
        rcases List.mem_append.1 hmem with h | h
        · exact ⟨h, fun e => hne y hy (e ▸ betterEq_iff.2 (.inr ⟨rfl, Nat.le_refl _⟩))⟩
        · exact absurd (hb r hr y h) (hne y hy)
      -- count: the elements equal to those of best K' l' all land in best K
      have hcount : (best K' l').Subperm ((best K (l ++ best K' l')).erase r) := by
        rw [List.subperm_ext_iff]
        intro y hy
        rw [List.count_erase_of_ne (Ne.symm (hsub y hy).2.symm)]
        have h1 : List.count y (best K (l ++ best K' l') ++ rest) = List.count y (l ++ best K' l') :=
          hp.count_eq y
        have h2 : List.count y rest = 0 := List.count_eq_zero.2 (fun h => hne y hy (hb r hr y h))
        rw [List.count_append, List.count_append] at h1
        omega
      have h1 := hcount.length_le
      rw [List.length_erase_of_mem hr, best_length, best_length] at h1
      have h2 := List.length_pos_of_mem hr
      rw [best_length] at h2
      omega
  · rw [best_length]
    have h1 := best_length K' l'
    simp only [List.length_append, h1]
    omega

namespace TopKQueue

/-- The queue holds the best of what was offered. -/
structure Holds (q : TopKQueue S) (K : Nat) (offered : Multiset (Candidate S)) : Prop where
  pos : 0 < K
  cap : q.topK = K
  heap : IsHeap candLess q.mem q.len
  split : ∃ rest, offered = elems q.mem q.len + rest ∧
    ∀ r ∈ elems q.mem q.len, ∀ x ∈ rest, r.betterEq x = true
  size : q.len = min K offered.card

theorem Holds.le {q : TopKQueue S} {K : Nat} {M : Multiset (Candidate S)} (h : q.Holds K M) : q.len ≤ K := by
  have := h.size; omega

theorem root_worst {q : TopKQueue S} {K : Nat} {M : Multiset (Candidate S)} (h : q.Holds K M) :
    ∀ r ∈ elems q.mem q.len, r.betterEq (q.mem 0) = true := by
  intro r hr
  obtain ⟨k, hk, rfl⟩ := mem_elems.1 hr
  exact le_candLess.1 (root_le candOrder h.heap k hk)

theorem elems_reject {q : TopKQueue S} {K : Nat} {M : Multiset (Candidate S)} (h : q.Holds K M)
    (hf : q.len = K) {c : Candidate S} (hc : (q.mem 0).betterEq c = true) : q.Holds K (c ::ₘ M) := by
  obtain ⟨rest, h1, h2⟩ := h.split
  refine ⟨h.pos, h.cap, h.heap, ⟨c ::ₘ rest, by rw [h1]; simp, ?_⟩, ?_⟩
  · intro r hr x hx
    rcases Multiset.mem_cons.1 hx with rfl | hx
    · exact betterEq_trans _ _ _ (root_worst h r hr) hc
    · exact h2 r hr x hx
  · have := h.size; simp; omega

/-- `Add` keeps the queue correct. -/
theorem add_spec {q : TopKQueue S} {K : Nat} {M : Multiset (Candidate S)} (h : q.Holds K M) (p : Nat) (s : S) :
    ∃ q', q.add p s = .ok q' ∧ q'.Holds K (⟨p, s⟩ ::ₘ M) := by
  have hlen := h.le
  by_cases hf : q.len = K
  · -- full
    have hfull : q.isFull = true := by simp [isFull, h.cap, hf]
    have hpos := h.pos
    have htop : q.top = .ok (q.mem 0) := by simp only [top]; rw [if_neg (by omega)]
    by_cases hs : (q.mem 0).score ≤ s
    · by_cases hl : candLess (q.mem 0) ⟨p, s⟩ = true
      · refine ⟨q.updateTop ⟨p, s⟩, ?_, ?_⟩
        · unfold add canTakeWithScore
          simp only [hfull, htop, Bool.not_true, Bool.false_eq_true, if_false, bind, Except.bind, pure, Except.pure,
            hs, decide_true, hl, if_true]
          rw [if_neg (by rw [h.cap, hf]; omega)]
        · have hfix := fix0_spec (less := candLess) candOrder (m := fun k => if k = 0 then ⟨p, s⟩ else q.mem k)
            (n := q.len) (by omega) (by
              intro k hk0 hkn hne
              simp only [hne, if_false, show k ≠ 0 by omega]
              exact h.heap k hk0 hkn (by omega))
          obtain ⟨rest, h1, h2⟩ := h.split
          obtain ⟨n, hn⟩ : ∃ n, q.len = n + 1 := ⟨q.len - 1, by omega⟩
          -- elems without the root
          have hel : ∀ (m : Nat → Candidate S) (n : Nat), elems m (n + 1)
              = m 0 ::ₘ elems (fun k => m (k + 1)) n := by
            intro m n
            induction n with
            | zero => simp [elems]
            | succ n ih => rw [elems_succ, ih, elems_succ (fun k => m (k + 1))]; exact Multiset.cons_swap _ _ _
          have e1 : elems (q.updateTop ⟨p, s⟩).mem (q.updateTop ⟨p, s⟩).len
              = ⟨p, s⟩ ::ₘ elems (fun k => q.mem (k + 1)) n := by
            show elems (fix0 candLess (fun k => if k = 0 then ⟨p, s⟩ else q.mem k) q.len) q.len = _
            rw [hfix.2.elems_eq, hn, hel]
            simp
          have e2 : elems q.mem q.len = q.mem 0 ::ₘ elems (fun k => q.mem (k + 1)) n := by rw [hn, hel]
          refine ⟨h.pos, h.cap, hfix.1, ⟨q.mem 0 ::ₘ rest, ?_, ?_⟩, ?_⟩
          · rw [e1, h1, e2]
            simp [Multiset.cons_swap]
          · have hb : Candidate.betterEq ⟨p, s⟩ (q.mem 0) = true :=
              le_candLess.1 (le_of_less candOrder hl)
            intro r hr x hx
            rw [e1] at hr
            have hr0 : r.betterEq (q.mem 0) = true := by
              rcases Multiset.mem_cons.1 hr with rfl | hr
              · exact hb
              · exact root_worst h r (by rw [e2]; exact Multiset.mem_cons_of_mem hr)
            rcases Multiset.mem_cons.1 hx with rfl | hx
            · exact hr0
            · exact betterEq_trans _ _ _ hr0 (h2 (q.mem 0) (by rw [e2]; simp) x hx)
          · have := h.size
            show q.len = _
            simp; omega
      · refine ⟨q, ?_, elems_reject h hf ?_⟩
        · unfold add canTakeWithScore
          simp only [hfull, htop, Bool.not_true, Bool.false_eq_true, if_false, bind, Except.bind, pure, Except.pure,
            hs, decide_true, hl]
          rw [if_neg (by rw [h.cap, hf]; omega)]
        · exact le_candLess.1 (by simpa [Heap.le] using hl)
    · refine ⟨q, ?_, elems_reject h hf ?_⟩
      · unfold add canTakeWithScore
        simp [hfull, htop, bind, Except.bind, pure, Except.pure, hs]
      · exact betterEq_iff.2 (.inl (not_le.1 hs))
  · -- room left
    have hfull : q.isFull = false := by simp [isFull, h.cap, hf]
    obtain ⟨rest, h1, h2⟩ := h.split
    have hrest : rest = 0 := by
      have := h.size
      rw [h1, Multiset.card_add, elems_card] at this
      exact Multiset.card_eq_zero.1 (by omega)
    have hcong : elems (fun k => if k = q.len then (⟨p, s⟩ : Candidate S) else q.mem k) q.len = elems q.mem q.len :=
      elems_congr (fun k hk => by simp; intro e; omega)
    have hpush := push_spec (less := candLess) candOrder
      (m := fun k => if k = q.len then ⟨p, s⟩ else q.mem k) (n := q.len) (by
        intro k hk0 hkn _
        simp only [show k ≠ q.len by omega, show (k - 1) / 2 ≠ q.len by omega, if_false]
        exact h.heap k hk0 hkn (by omega))
    refine ⟨q.push ⟨p, s⟩, ?_, ?_⟩
    · unfold add canTakeWithScore
      simp only [hfull, Bool.not_false, if_true, bind, Except.bind, pure, Except.pure]
      simp only [Bool.not_true, Bool.false_eq_true, if_false]
      rw [if_pos (by rw [h.cap]; omega)]
    · refine ⟨h.pos, h.cap, hpush.1, ⟨0, ?_, by simp⟩, ?_⟩
      · show _ = elems (Heap.push candLess _ q.len) (q.len + 1) + 0
        rw [hpush.2.2, hcong, h1, hrest]
        simp
      · have := h.size
        show q.len + 1 = _
        simp; omega

theorem addAll_spec {K : Nat} : ∀ (xs : List (Candidate S)) {q : TopKQueue S} {M : Multiset (Candidate S)},
    q.Holds K M → ∃ q', q.addAll xs = .ok q' ∧ q'.Holds K (M + (xs : Multiset (Candidate S)))
  | [], q, M, h => ⟨q, rfl, by simpa using h⟩
  | x :: xs, q, M, h => by
    obtain ⟨q1, e1, h1⟩ := add_spec h x.key x.score
    obtain ⟨q2, e2, h2⟩ := addAll_spec xs h1
    refine ⟨q2, ?_, ?_⟩
    · simp only [addAll, e1, bind, Except.bind, e2]
    · have e : M + ((x :: xs : List (Candidate S)) : Multiset (Candidate S))
          = (⟨x.key, x.score⟩ ::ₘ M) + (xs : Multiset (Candidate S)) := by
        rw [← Multiset.cons_coe, Multiset.add_cons, Multiset.cons_add]
      rw [e]; exact h2

theorem popAll_spec : ∀ (n : Nat) {mem sorted : Nat → Candidate S}, IsHeap candLess mem n →
    (∀ k, k < n → (popAll n mem sorted).2 k = (popAll n mem sorted).1 k) ∧
    (∀ k, n ≤ k → (popAll n mem sorted).1 k = mem k ∧ (popAll n mem sorted).2 k = sorted k) ∧
    elems (popAll n mem sorted).1 n = elems mem n ∧
    (∀ i j, i < j → j < n → ((popAll n mem sorted).1 i).betterEq ((popAll n mem sorted).1 j) = true)
  | 0, mem, sorted, _ => by simp [popAll]
  | n + 1, mem, sorted, h => by
    obtain ⟨p1, p2, p3, p4, p5⟩ := pop_spec candOrder h
    obtain ⟨i1, i2, i3, i4⟩ := popAll_spec n (mem := Heap.pop candLess mem (n + 1))
      (sorted := fun k => if k = n then Heap.pop candLess mem (n + 1) n else sorted k) p1
    have hslot : (popAll n (Heap.pop candLess mem (n + 1))
        (fun k => if k = n then Heap.pop candLess mem (n + 1) n else sorted k)).1 n = mem 0 := by
      rw [(i2 n (Nat.le_refl _)).1, p2]
    refine ⟨fun k hk => ?_, fun k hk => ⟨?_, ?_⟩, ?_, ?_⟩
    · simp only [popAll]
      rcases Nat.lt_or_ge k n with hlt | hge
      · exact i1 k hlt
      · have : k = n := by omega
        subst this
        rw [(i2 k (Nat.le_refl _)).1, (i2 k (Nat.le_refl _)).2]; simp
    · simp only [popAll]
      rw [(i2 k (by omega)).1]
      exact p3.outside hk
    · simp only [popAll]
      rw [(i2 k (by omega)).2]
      simp [show k ≠ n by omega]
    · simp only [popAll]
      rw [elems_succ, i3, p4, hslot]
    · intro i j hij hj
      simp only [popAll]
      rcases Nat.lt_or_ge j n with hlt | hge
      · exact i4 i j hij hlt
      · have : j = n := by omega
        subst this
        rw [hslot]
        have hmem : (popAll j (Heap.pop candLess mem (j + 1))
            (fun k => if k = j then Heap.pop candLess mem (j + 1) j else sorted k)).1 i
            ∈ elems (Heap.pop candLess mem (j + 1)) j := by
          rw [← i3]; exact mem_elems.2 ⟨i, hij, rfl⟩
        obtain ⟨k, hk, e⟩ := mem_elems.1 hmem
        rw [← e]
        exact le_candLess.1 (p5 k hk)

omit [LinearOrder S] in
theorem reverseLoop_eq (n : Nat) : ∀ (I : Nat) (mem : Nat → Candidate S), 2 * I ≤ n → ∀ k, k < n →
    reverseLoop n I mem k = if k < I ∨ n - 1 - k < I then mem (n - 1 - k) else mem k
  | 0, mem, _, k, hk => by simp [reverseLoop]
  | I + 1, mem, hI, k, hk => by
    rw [reverseLoop, reverseLoop_eq n I _ (by omega) k hk]
    simp only [Heap.swap]
    by_cases h1 : k < I ∨ n - 1 - k < I
    · rw [if_pos h1, if_neg (by omega), if_neg (by omega), if_pos (by omega)]
    · rw [if_neg h1]
      by_cases h2 : k = I
      · subst h2; simp
      · rw [if_neg h2]
        by_cases h3 : k = n - 1 - I
        · rw [if_pos h3, if_pos (by omega), show n - 1 - k = I by omega]
        · rw [if_neg h3, if_neg (by omega)]

omit [LinearOrder S] in
theorem elems_coe (mem : Nat → Candidate S) (n : Nat) :
    elems mem n = (((List.range n).map mem : List (Candidate S)) : Multiset (Candidate S)) := rfl

/-- `GetCandidates` returns the held candidates best first and keeps them. -/
theorem getCandidates_spec {q : TopKQueue S} {K : Nat} {offered : List (Candidate S)}
    (h : q.Holds K (offered : Multiset (Candidate S))) :
    q.getCandidates.1 = best K offered ∧ q.getCandidates.2.Holds K (offered : Multiset (Candidate S)) := by
  obtain ⟨rest, h1, h2⟩ := h.split
  have hsize := h.size
  have hK := h.pos
  by_cases h0 : q.len = 0
  · have : offered = [] := by
      apply List.eq_nil_of_length_eq_zero
      simp at hsize; omega
    subst this
    have : q.getCandidates = ([], q) := by simp [getCandidates, h0]
    rw [this]
    exact ⟨by simp [best], h⟩
  · obtain ⟨i1, i2, i3, i4⟩ := popAll_spec q.len (mem := q.mem) (sorted := q.mem) h.heap
    obtain ⟨m', hm'⟩ : ∃ m', (popAll q.len q.mem q.mem).1 = m' := ⟨_, rfl⟩
    obtain ⟨s', hs'⟩ : ∃ s', (popAll q.len q.mem q.mem).2 = s' := ⟨_, rfl⟩
    rw [hm', hs'] at i1
    rw [hm'] at i3 i4
    have hpair : popAll q.len q.mem q.mem = (m', s') := by rw [← hm', ← hs']
    have hget : q.getCandidates = ((List.range q.len).map s',
        { q with mem := reverseLoop q.len (q.len / 2) m' }) := by
      simp only [getCandidates, h0, if_false, hpair]
    have hrev : ∀ k, k < q.len → reverseLoop q.len (q.len / 2) m' k = m' (q.len - 1 - k) := by
      intro k hk
      rw [reverseLoop_eq _ _ _ (by omega) k hk]
      split
      · rfl
      · congr 1; omega
    have hmap : (List.range q.len).map s' = (List.range q.len).map m' :=
      List.map_congr_left (fun k hk => i1 k (List.mem_range.1 hk))
    rw [hget]
    constructor
    · simp only [hmap]
      refine best_unique (rest := rest.toList) ?_ ?_ ?_ ?_
      · rw [BestFirst, List.pairwise_map]
        refine (List.pairwise_lt_range (n := q.len)).imp_of_mem ?_
        intro a b ha hb hab
        exact i4 a b hab (List.mem_range.1 hb)
      · rw [← Multiset.coe_eq_coe, ← Multiset.coe_add, Multiset.coe_toList, h1, ← i3, elems_coe]
      · intro r hr x hx
        apply h2 r _ x (Multiset.mem_toList.1 hx)
        rw [← i3, elems_coe]; exact Multiset.mem_coe.2 hr
      · simpa using hsize
    · have helems : elems (reverseLoop q.len (q.len / 2) m') q.len = elems q.mem q.len := by
        rw [← i3]
        have e1 : elems (reverseLoop q.len (q.len / 2) m') q.len = elems (fun k => m' (q.len - 1 - k)) q.len :=
          elems_congr hrev
        rw [e1]
        have : ∀ n (m : Nat → Candidate S), elems (fun k => m (n - 1 - k)) n = elems m n := by
          intro n m
          rw [elems_coe, elems_coe, Multiset.coe_eq_coe]
          have : (List.range n).map (fun k => m (n - 1 - k)) = ((List.range n).map m).reverse := by
            apply List.ext_getElem
            · simp
            · intro i h1 h2
              simp
          rw [this]
          exact List.reverse_perm _
        exact this _ _
      refine ⟨hK, h.cap, ?_, ⟨rest, ?_, ?_⟩, hsize⟩
      · intro k hk0 hkn _
        simp only at hkn ⊢
        rw [hrev k hkn, hrev _ (by omega)]
        exact le_candLess.2 (i4 _ _ (by omega) (by omega))
      · simp only [helems]; exact h1
      · simp only [helems]; exact h2

end TopKQueue
end Verif
