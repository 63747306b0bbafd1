import Verif.Model.Heap
import Mathlib.Data.Multiset.Range
import Mathlib.Logic.Equiv.Basic
import Mathlib.Tactic.Ring
import Mathlib.Tactic.Tauto

namespace Verif.Heap
variable {α : Type}

/-- `less` is the strict part of a total preorder. -/
structure Order (less : α → α → Bool) : Prop where
  irrefl : ∀ a, less a a = false
  trans : ∀ a b c, less a b = false → less b c = false → less a c = false
  asymm : ∀ a b, less a b = true → less b a = false

/-- `a` may stand above `b` in the heap. -/
def le (less : α → α → Bool) (a b : α) : Prop := less b a = false

variable {less : α → α → Bool}

theorem le_refl (O : Order less) (a : α) : le less a a := O.irrefl a
theorem le_trans (O : Order less) {a b c : α} (h1 : le less a b) (h2 : le less b c) : le less a c :=
  O.trans c b a h2 h1
theorem le_of_less (O : Order less) {a b : α} (h : less a b = true) : le less a b := O.asymm _ _ h

/-- Heap property for all nodes whose parent index is at least `a`. -/
def IsHeapFrom (less : α → α → Bool) (a : Nat) (m : Nat → α) (n : Nat) : Prop :=
  ∀ k, 0 < k → k < n → a ≤ (k - 1) / 2 → le less (m ((k - 1) / 2)) (m k)

/-- Heap property. -/
abbrev IsHeap (less : α → α → Bool) (m : Nat → α) (n : Nat) : Prop := IsHeapFrom less 0 m n

/-- `m'` arises from `m` by permuting the first `n` slots. -/
def PermOn (n : Nat) (m m' : Nat → α) : Prop :=
  ∃ σ : Equiv.Perm Nat, (∀ k, n ≤ k → σ k = k) ∧ m' = m ∘ σ

theorem PermOn.refl (n : Nat) (m : Nat → α) : PermOn n m m := ⟨Equiv.refl _, fun _ _ => rfl, rfl⟩

theorem PermOn.trans {n : Nat} {m m' m'' : Nat → α} (h1 : PermOn n m m') (h2 : PermOn n m' m'') :
    PermOn n m m'' := by
  obtain ⟨σ, hs, rfl⟩ := h1
  obtain ⟨τ, ht, rfl⟩ := h2
  refine ⟨τ.trans σ, fun k hk => ?_, rfl⟩
  simp [ht k hk, hs k hk]

theorem PermOn.mono {n n' : Nat} {m m' : Nat → α} (h : PermOn n m m') (hn : n ≤ n') : PermOn n' m m' := by
  obtain ⟨σ, hs, e⟩ := h
  exact ⟨σ, fun k hk => hs k (by omega), e⟩

theorem PermOn.outside {n : Nat} {m m' : Nat → α} (h : PermOn n m m') {k : Nat} (hk : n ≤ k) :
    m' k = m k := by
  obtain ⟨σ, hs, rfl⟩ := h
  simp [hs k hk]

theorem permOn_swap (m : Nat → α) {n i j : Nat} (hi : i < n) (hj : j < n) : PermOn n m (swap m i j) := by
  refine ⟨Equiv.swap i j, fun k hk => ?_, ?_⟩
  · exact Equiv.swap_apply_of_ne_of_ne (by omega) (by omega)
  · funext k
    simp only [swap, Function.comp]
    rw [Equiv.swap_apply_def]
    split <;> [rfl; split <;> rfl]

/-- The multiset of the first `n` elements. -/
def elems (m : Nat → α) (n : Nat) : Multiset α := (Multiset.range n).map m

theorem elems_succ (m : Nat → α) (n : Nat) : elems m (n + 1) = m n ::ₘ elems m n := by
  simp [elems, Multiset.range_succ]

theorem elems_congr {m m' : Nat → α} {n : Nat} (h : ∀ k, k < n → m k = m' k) : elems m n = elems m' n :=
  Multiset.map_congr rfl (fun k hk => h k (Multiset.mem_range.1 hk))

theorem mem_elems {m : Nat → α} {n : Nat} {x : α} : x ∈ elems m n ↔ ∃ k, k < n ∧ m k = x := by
  simp [elems]

theorem elems_card (m : Nat → α) (n : Nat) : (elems m n).card = n := by simp [elems]

theorem PermOn.elems_eq {n : Nat} {m m' : Nat → α} (h : PermOn n m m') : elems m' n = elems m n := by
  obtain ⟨σ, hs, rfl⟩ := h
  have hlt : ∀ k, k < n → σ k < n := by
    intro k hk
    by_contra hc
    have h1 := hs (σ k) (by omega)
    have := σ.injective h1
    omega
  have hinj : ((Multiset.range n).map σ).Nodup := (Multiset.nodup_range n).map σ.injective
  have : (Multiset.range n).map σ = Multiset.range n := by
    apply Multiset.eq_of_le_of_card_le
    · rw [Multiset.le_iff_subset hinj]
      intro x hx
      obtain ⟨k, hk, rfl⟩ := Multiset.mem_map.1 hx
      exact Multiset.mem_range.2 (hlt k (Multiset.mem_range.1 hk))
    · simp
  unfold elems
  rw [← Multiset.map_map, this]

/-! ### down -/

theorem down_perm (m : Nat → α) (i n : Nat) (hi : i < n ∨ n ≤ 2 * i + 1) : PermOn n m (down less m i n) := by
  fun_induction down less m i n with
  | case1 m i h j hl => exact PermOn.refl _ _
  | case2 m i h j hl ih =>
    have hj : j < n ∧ i < j := by
      simp only [j]; split
      · rename_i hc; omega
      · omega
    exact (permOn_swap m (by omega) hj.1).trans (ih (.inl hj.1))
  | case3 m i h => exact PermOn.refl _ _

theorem down_outside_lt (m : Nat → α) (i n k : Nat) (hk : k < i) : down less m i n k = m k := by
  fun_induction down less m i n with
  | case1 m i h j hl => rfl
  | case2 m i h j hl ih =>
    have hj : i < j := by simp only [j]; split <;> omega
    rw [ih (by omega)]
    simp only [swap]
    rw [if_neg (by omega), if_neg (by omega)]
  | case3 m i h => rfl

theorem down_heap (O : Order less) (a : Nat) (m : Nat → α) (i n : Nat) (hai : a ≤ i)
    (h1 : ∀ k, 0 < k → k < n → a ≤ (k - 1) / 2 → (k - 1) / 2 ≠ i → le less (m ((k - 1) / 2)) (m k))
    (h2 : 0 < i → a ≤ (i - 1) / 2 → ∀ k, 0 < k → k < n → (k - 1) / 2 = i →
      le less (m ((i - 1) / 2)) (m k)) :
    IsHeapFrom less a (down less m i n) n := by
  fun_induction down less m i n with
  | case1 m i h j hl =>
    intro k hk0 hkn hka
    by_cases hki : (k - 1) / 2 = i
    · have hlij : le less (m i) (m j) := by simpa [le] using hl
      have hk : k = 2 * i + 1 ∨ k = 2 * i + 2 := by omega
      rw [hki]
      simp only [j] at hlij
      rcases hk with rfl | rfl
      · split at hlij
        · rename_i hc
          exact le_trans O hlij (le_of_less O hc.2)
        · exact hlij
      · split at hlij
        · exact hlij
        · rename_i hc
          have : less (m (2 * i + 2)) (m (2 * i + 1)) = false := by
            simpa [hkn] using hc
          exact le_trans O hlij this
    · exact h1 k hk0 hkn hka hki
  | case2 m i h j hl ih =>
    have hj : j < n ∧ i < j ∧ (j - 1) / 2 = i ∧ (j = 2 * i + 1 ∨ j = 2 * i + 2) := by
      simp only [j]; split
      · rename_i hc; omega
      · omega
    have hmin : ∀ k, 0 < k → k < n → (k - 1) / 2 = i → le less (m j) (m k) := by
      intro k hk0 hkn hki
      have hk : k = 2 * i + 1 ∨ k = 2 * i + 2 := by omega
      simp only [j]
      rcases hk with rfl | rfl
      · split
        · rename_i hc
          exact le_of_less O hc.2
        · exact le_refl O _
      · split
        · exact le_refl O _
        · rename_i hc
          simpa [hkn, le] using hc
    have hless : less (m j) (m i) = true := by simpa using hl
    obtain ⟨hjn, hij, hpar, -⟩ := hj
    have ei : swap m i j i = m j := by simp [swap]
    have ej : swap m i j j = m i := by simp [swap]; intro h; rw [h]
    have eo : ∀ k, k ≠ i → k ≠ j → swap m i j k = m k := fun k h1 h2 => by simp [swap, h1, h2]
    apply ih (by omega)
    · intro k hk0 hkn hka hkj
      by_cases hki : (k - 1) / 2 = i
      · rw [hki, ei]
        by_cases hkj' : k = j
        · rw [hkj', ej]; exact le_of_less O hless
        · rw [eo k (by omega) hkj']; exact hmin k hk0 hkn hki
      · by_cases hk : k = i
        · subst hk
          rw [ei, eo _ hki hkj]
          exact h2 hk0 hka j (by omega) hjn hpar
        · rw [eo _ hki hkj, eo k hk (by intro h; subst h; exact hki hpar)]
          exact h1 k hk0 hkn hka hki
    · intro _ _ k hk0 hkn hkj
      rw [hpar, ei, eo k (by omega) (by omega)]
      have := h1 k hk0 hkn (by omega) (by omega)
      rw [hkj] at this
      exact this
  | case3 m i h =>
    intro k hk0 hkn hka
    exact h1 k hk0 hkn hka (by omega)

/-! ### up -/

theorem up_perm (m : Nat → α) (j n : Nat) (hj : j < n) : PermOn n m (up less m j) := by
  fun_induction up less m j with
  | case1 => exact PermOn.refl _ _
  | case2 => exact PermOn.refl _ _
  | case3 m j i hij hl ih =>
    exact (permOn_swap m (by omega) hj).trans (ih (by omega))

theorem up_heap (O : Order less) (m : Nat → α) (j n : Nat)
    (h1 : ∀ k, 0 < k → k < n → k ≠ j → le less (m ((k - 1) / 2)) (m k))
    (h2 : 0 < j → ∀ k, 0 < k → k < n → (k - 1) / 2 = j → le less (m ((j - 1) / 2)) (m k)) :
    IsHeap less (up less m j) n := by
  fun_induction up less m j with
  | case1 m j i hij =>
    intro k hk0 hkn _
    exact h1 k hk0 hkn (by omega)
  | case2 m j i hij hl =>
    intro k hk0 hkn _
    by_cases hk : k = j
    · rw [hk]; simpa [le] using hl
    · exact h1 k hk0 hkn hk
  | case3 m j i hij hl ih =>
    have hless : less (m j) (m i) = true := by simpa using hl
    have hi : i < j := by omega
    have ei : swap m i j i = m j := by simp [swap]
    have ej : swap m i j j = m i := by simp [swap]; intro h; rw [h]
    have eo : ∀ k, k ≠ i → k ≠ j → swap m i j k = m k := fun k h1 h2 => by simp [swap, h1, h2]
    apply ih
    · intro k hk0 hkn hki
      by_cases hkj : k = j
      · rw [hkj, ej, show (j - 1) / 2 = i from rfl, ei]; exact le_of_less O hless
      · rw [eo k hki hkj]
        by_cases hp : (k - 1) / 2 = i
        · rw [hp, ei]
          have := h1 k hk0 hkn hkj
          rw [hp] at this
          exact le_trans O (le_of_less O hless) this
        · by_cases hp' : (k - 1) / 2 = j
          · rw [hp', ej]
            exact h2 (by omega) k hk0 hkn hp'
          · rw [eo _ hp hp']; exact h1 k hk0 hkn hkj
    · intro hi0 k hk0 hkn hki
      rw [eo ((i - 1) / 2) (by omega) (by omega)]
      have hgp := h1 i hi0 (by omega) (by omega)
      by_cases hkj : k = j
      · rw [hkj, ej]; exact hgp
      · rw [eo k (by omega) hkj]
        have := h1 k hk0 hkn hkj
        rw [hki] at this
        exact le_trans O hgp this

/-! ### heap operations -/

theorem root_le (O : Order less) {m : Nat → α} {n : Nat} (h : IsHeap less m n) :
    ∀ k, k < n → le less (m 0) (m k) := by
  intro k
  induction k using Nat.strong_induction_on with
  | _ k ih =>
    intro hk
    by_cases h0 : k = 0
    · subst h0; exact le_refl O _
    · exact le_trans O (ih ((k - 1) / 2) (by omega) (by omega)) (h k (by omega) hk (by omega))

theorem initLoop_spec (O : Order less) (n : Nat) : ∀ (i : Nat) (m : Nat → α), i ≤ n / 2 →
    IsHeapFrom less i m n → IsHeap less (initLoop less n i m) n ∧ PermOn n m (initLoop less n i m)
  | 0, m, _, h => ⟨h, PermOn.refl _ _⟩
  | i + 1, m, hi, h => by
    have hd : IsHeapFrom less i (down less m i n) n := by
      apply down_heap O i m i n (by omega)
      · intro k hk0 hkn hka hne
        exact h k hk0 hkn (by omega)
      · intro h0 hle
        omega
    obtain ⟨e1, e2⟩ := initLoop_spec O n i _ (by omega) hd
    exact ⟨e1, (down_perm m i n (by omega)).trans e2⟩

theorem init_spec (O : Order less) (m : Nat → α) (n : Nat) :
    IsHeap less (init less m n) n ∧ PermOn n m (init less m n) := by
  apply initLoop_spec O n _ _ (by omega)
  intro k hk0 hkn hka
  omega

/-- `heap.Pop`: the root goes to slot `n`, the rest stays a heap. -/
theorem pop_spec (O : Order less) {m : Nat → α} {n : Nat} (h : IsHeap less m (n + 1)) :
    IsHeap less (pop less m (n + 1)) n ∧ pop less m (n + 1) n = m 0 ∧
      PermOn (n + 1) m (pop less m (n + 1)) ∧
      elems m (n + 1) = m 0 ::ₘ elems (pop less m (n + 1)) n ∧
      (∀ k, k < n → le less (m 0) (pop less m (n + 1) k)) := by
  have hperm : PermOn n (swap m 0 n) (pop less m (n + 1)) := by
    have := down_perm (less := less) (swap m 0 n) 0 n (by omega)
    simpa [pop] using this
  have hslot : pop less m (n + 1) n = m 0 := by
    rw [hperm.outside (Nat.le_refl n)]
    simp [swap]; intro h; rw [h]
  have hp : PermOn (n + 1) m (pop less m (n + 1)) :=
    (permOn_swap m (by omega) (by omega)).trans (hperm.mono (by omega))
  have hel : elems m (n + 1) = m 0 ::ₘ elems (pop less m (n + 1)) n := by
    rw [← hp.elems_eq, elems_succ, hslot]
  refine ⟨?_, hslot, hp, hel, ?_⟩
  · have : pop less m (n + 1) = down less (swap m 0 n) 0 n := by simp [pop]
    rw [this]
    apply down_heap O 0 _ 0 n (by omega)
    · intro k hk0 hkn _ hne
      have e : ∀ q, q ≠ 0 → q < n → swap m 0 n q = m q := fun q h1 h2 => by
        simp [swap, h1]; omega
      rw [e _ hne (by omega), e k (by omega) hkn]
      exact h k hk0 (by omega) (by omega)
    · intro h0; omega
  · intro k hk
    have : pop less m (n + 1) k ∈ elems m (n + 1) := by
      rw [hel]; exact Multiset.mem_cons_of_mem (mem_elems.2 ⟨k, hk, rfl⟩)
    obtain ⟨q, hq, e⟩ := mem_elems.1 this
    rw [← e]
    exact root_le O h q hq

/-- `heap.Push`. -/
theorem push_spec (O : Order less) {m : Nat → α} {n : Nat} (h : IsHeap less m n) :
    IsHeap less (push less m n) (n + 1) ∧ PermOn (n + 1) m (push less m n) ∧
      elems (push less m n) (n + 1) = m n ::ₘ elems m n := by
  have hp := up_perm (less := less) m n (n + 1) (by omega)
  refine ⟨?_, hp, ?_⟩
  · apply up_heap O
    · intro k hk0 hkn hne
      exact h k hk0 (by omega) (by omega)
    · intro _ k hk0 hkn hkj
      omega
  · rw [push, hp.elems_eq, elems_succ]

/-- `heap.Fix(h, 0)` after replacing the root. -/
theorem fix0_spec (O : Order less) {m : Nat → α} {n : Nat} (hn : 0 < n)
    (h : ∀ k, 0 < k → k < n → (k - 1) / 2 ≠ 0 → le less (m ((k - 1) / 2)) (m k)) :
    IsHeap less (fix0 less m n) n ∧ PermOn n m (fix0 less m n) := by
  refine ⟨?_, down_perm m 0 n (.inl hn)⟩
  apply down_heap O 0 _ 0 n (by omega)
  · intro k hk0 hkn _ hne
    exact h k hk0 hkn hne
  · intro h0; omega

end Verif.Heap
