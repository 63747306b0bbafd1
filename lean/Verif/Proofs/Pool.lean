import Verif.Model.Pool
import Mathlib.Logic.Relation
import Mathlib.Data.List.Nodup
import Mathlib.Order.Nat
import Mathlib.Data.Nat.Find
/-!
Ownership: a program that is correct when it alone may touch the objects it got (`wp`) is correct in every interleaving (`Inv`).
-/
namespace Verif.Pool
open Verif Relation

section
variable {J P V α β : Type}

/-- The program, owning the objects `own`, accesses nothing else, puts only objects `ok` for the pool back, and ends with `Q` — whatever
objects it is given. -/
def wp (ok : P → V → Prop) : Prog P V α → (Ref → Option V) → (α → (Ref → Option V) → Prop) → Prop
  | .ret a, own, Q => Q a own
  | .act r f k, own, Q => ∃ v, own r = some v ∧ wp ok (k v) (Function.update own r (some (f v))) Q
  | .alloc v k, own, Q => ∀ r, own r = none → wp ok (k r) (Function.update own r (some v)) Q
  | .get p k, own, Q => ∀ r v, own r = none → ok p v → wp ok (k r) (Function.update own r (some v)) Q
  | .put p r k, own, Q => ∃ v, own r = some v ∧ ok p v ∧ wp ok k (Function.update own r none) Q

theorem wp_mono {ok : P → V → Prop} {x : Prog P V α} {own : Ref → Option V} {Q Q' : α → (Ref → Option V) → Prop}
    (h : wp ok x own Q) (hq : ∀ a o, Q a o → Q' a o) : wp ok x own Q' := by
  induction x generalizing own with
  | ret a => exact hq _ _ h
  | act r f k ih => obtain ⟨v, h1, h2⟩ := h; exact ⟨v, h1, ih v h2⟩
  | alloc v k ih => exact fun r hr => ih r (h r hr)
  | get p k ih => exact fun r v hr hv => ih r (h r v hr hv)
  | put p r k ih => obtain ⟨v, h1, h2, h3⟩ := h; exact ⟨v, h1, h2, ih h3⟩

theorem wp_bind {ok : P → V → Prop} {x : Prog P V α} {f : α → Prog P V β} {own : Ref → Option V} {Q : β → (Ref → Option V) → Prop} :
    wp ok (x.bind f) own Q ↔ wp ok x own (fun a o => wp ok (f a) o Q) := by
  induction x generalizing own with
  | ret a => rfl
  | act r g k ih => exact exists_congr fun v => and_congr_right fun _ => ih v
  | alloc v k ih => exact forall_congr' fun r => imp_congr_right fun _ => ih r
  | get p k ih => exact forall_congr' fun r => forall_congr' fun v => imp_congr_right fun _ => imp_congr_right fun _ => ih r
  | put p r k ih => exact exists_congr fun v => and_congr_right fun _ => and_congr_right fun _ => ih

theorem wp_do {ok : P → V → Prop} {x : Prog P V α} {f : α → Prog P V β} {own : Ref → Option V} {Q : β → (Ref → Option V) → Prop} :
    wp ok (x >>= f) own Q ↔ wp ok x own (fun a o => wp ok (f a) o Q) := wp_bind

theorem wp_pure {ok : P → V → Prop} {a : α} {own : Ref → Option V} {Q : α → (Ref → Option V) → Prop} :
    wp ok (pure a : Prog P V α) own Q ↔ Q a own := Iff.rfl

/-- The objects are partitioned between goroutines and pools, and every goroutine is correct with what it owns. -/
structure Inv (ok : P → V → Prop) (spec : J → α → Prop) (s : Sys J P V α) (owns : Nat → Ref → Option V) : Prop where
  sub : ∀ i r v, owns i r = some v → s.heap r = some v
  disj : ∀ i j r, i ≠ j → owns i r ≠ none → owns j r = none
  pooled : ∀ p r, r ∈ s.pool p → (∃ v, s.heap r = some v ∧ ok p v) ∧ ∀ i, owns i r = none
  once : ∀ p, (s.pool p).Nodup
  apart : ∀ p q r, p ≠ q → r ∈ s.pool p → r ∉ s.pool q
  idle : ∀ i, s.threads.length ≤ i → ∀ r, owns i r = none
  run : ∀ i j x, s.threads[i]? = some (j, x) → wp ok x (owns i) (fun a _ => spec j a)

variable [DecidableEq P] {fresh : P → V → Prop} {start : J → Prog P V α} {ok : P → V → Prop} {spec : J → α → Prop}

theorem owns_of_heap_none {s : Sys J P V α} {owns : Nat → Ref → Option V} (h : Inv ok spec s owns) {r : Ref} (hr : s.heap r = none) (i : Nat) :
    owns i r = none := by
  cases ho : owns i r with
  | none => rfl
  | some v => have := h.sub i r v ho; rw [hr] at this; cases this

theorem set_run {l : List (J × Prog P V α)} {i : Nat} {y : J × Prog P V α} {n : Nat} {j : J} {x : Prog P V α}
    (h : (l.set i y)[n]? = some (j, x)) : (n = i ∧ (j, x) = y) ∨ (n ≠ i ∧ l[n]? = some (j, x)) := by
  by_cases e : n = i
  · subst e
    have hl : n < (l.set n y).length := (List.getElem?_eq_some_iff.1 h).1
    rw [List.length_set] at hl
    rw [List.getElem?_set_self hl] at h
    exact .inl ⟨rfl, (Option.some.inj h).symm⟩
  · rw [List.getElem?_set_ne (Ne.symm e)] at h
    exact .inr ⟨e, h⟩

/-- Goroutine `i` gets the object `r`, so far nobody's, with content `v`. -/
theorem inv_gain {s : Sys J P V α} {owns : Nat → Ref → Option V} (h : Inv ok spec s owns) {i : Nat} {j : J} {x : Prog P V α} {r : Ref} {v : V}
    (hi : i < s.threads.length) (hr : ∀ i, owns i r = none) {heap' : Ref → Option V} {pool' : P → List Ref}
    (hh : heap' = Function.update s.heap r (some v)) (hp1 : ∀ p q, q ∈ pool' p → q ∈ s.pool p) (hp2 : ∀ p, r ∉ pool' p)
    (hp3 : ∀ p, (pool' p).Nodup) (hx : wp ok x (Function.update (owns i) r (some v)) (fun a _ => spec j a)) :
    Inv ok spec { heap := heap', pool := pool', threads := s.threads.set i (j, x) }
      (Function.update owns i (Function.update (owns i) r (some v))) := by
  subst hh
  refine ⟨?_, ?_, ?_, hp3, fun p q r' hpq h1 h2 => h.apart p q r' hpq (hp1 p r' h1) (hp1 q r' h2), ?_, ?_⟩
  · intro n q w hq
    by_cases e : q = r
    · subst e
      simp only [Function.update_self]
      by_cases e2 : n = i
      · subst e2; simpa using hq
      · rw [Function.update_of_ne e2, hr n] at hq; cases hq
    · simp only [Function.update_of_ne e]
      by_cases e2 : n = i
      · subst e2
        rw [Function.update_self, Function.update_of_ne e] at hq
        exact h.sub n q w hq
      · rw [Function.update_of_ne e2] at hq
        exact h.sub n q w hq
  · intro n m q hnm hq
    by_cases e : q = r
    · subst e
      by_cases e2 : m = i
      · subst e2
        rw [Function.update_of_ne hnm, hr n] at hq
        exact absurd rfl hq
      · rw [Function.update_of_ne e2]; exact hr m
    · by_cases e2 : m = i
      · subst e2
        rw [Function.update_of_ne hnm] at hq
        rw [Function.update_self, Function.update_of_ne e]
        exact h.disj n m q hnm hq
      · rw [Function.update_of_ne e2]
        by_cases e3 : n = i
        · subst e3
          rw [Function.update_self, Function.update_of_ne e] at hq
          exact h.disj n m q hnm hq
        · rw [Function.update_of_ne e3] at hq
          exact h.disj n m q hnm hq
  · intro p q hq
    have e : q ≠ r := fun e => hp2 p (e ▸ hq)
    obtain ⟨⟨w, h1, h2⟩, h3⟩ := h.pooled p q (hp1 p q hq)
    refine ⟨⟨w, by simpa only [Function.update_of_ne e] using h1, h2⟩, fun n => ?_⟩
    by_cases e2 : n = i
    · subst e2; rw [Function.update_self, Function.update_of_ne e]; exact h3 n
    · rw [Function.update_of_ne e2]; exact h3 n
  · intro n hn q
    simp only [List.length_set] at hn
    rw [Function.update_of_ne (by omega)]
    exact h.idle n hn q
  · intro n j' x' hn
    rcases set_run hn with ⟨rfl, e⟩ | ⟨e, hn⟩
    · cases e
      rw [Function.update_self]
      exact hx
    · rw [Function.update_of_ne e]
      exact h.run n j' x' hn

theorem step_inv (hfresh : ∀ p v, fresh p v → ok p v) (hstart : ∀ j, wp ok (start j) (fun _ => none) (fun a _ => spec j a))
    {s s' : Sys J P V α} {a : Option Nat} (hs : s.Step fresh start a s') {owns : Nat → Ref → Option V} (h : Inv ok spec s owns) :
    ∃ owns', Inv ok spec s' owns' := by
  cases hs with
  | spawn j =>
    refine ⟨owns, h.sub, h.disj, h.pooled, h.once, h.apart, ?_, ?_⟩
    · intro i hi r
      rw [List.length_append] at hi
      exact h.idle i (by omega) r
    · intro i j' x hi
      by_cases hl : i < s.threads.length
      · rw [List.getElem?_append_left hl] at hi
        exact h.run i j' x hi
      · rw [List.getElem?_append_right (by omega)] at hi
        have : i - s.threads.length = 0 := by
          have := (List.getElem?_eq_some_iff.1 hi).1
          simp at this
          omega
        rw [this] at hi
        simp only [List.getElem?_cons_zero, Option.some.injEq, Prod.mk.injEq] at hi
        obtain ⟨rfl, rfl⟩ := hi
        have e : owns i = fun _ => none := funext fun r => h.idle i (by omega) r
        rw [e]
        exact hstart j
  | @act _ i j r f k v hi hr =>
    obtain ⟨w, h1, h2⟩ := h.run i j _ hi
    have hl := (List.getElem?_eq_some_iff.1 hi).1
    have := h.sub i r w h1
    rw [hr] at this
    cases this
    refine ⟨Function.update owns i (Function.update (owns i) r (some (f v))), ?_, ?_, ?_, h.once, h.apart, ?_, ?_⟩
    · intro n q w hq
      by_cases e : q = r
      · subst e
        simp only [Function.update_self]
        by_cases e2 : n = i
        · subst e2; simpa using hq
        · rw [Function.update_of_ne e2, h.disj i n q (Ne.symm e2) (by rw [h1]; simp)] at hq; cases hq
      · simp only [Function.update_of_ne e]
        by_cases e2 : n = i
        · subst e2
          rw [Function.update_self, Function.update_of_ne e] at hq
          exact h.sub n q w hq
        · rw [Function.update_of_ne e2] at hq
          exact h.sub n q w hq
    · have hnone : ∀ n q, Function.update owns i (Function.update (owns i) r (some (f v))) n q = none ↔ owns n q = none := by
        intro n q
        by_cases e2 : n = i
        · subst e2
          rw [Function.update_self]
          by_cases e : q = r
          · subst e; simp [h1]
          · rw [Function.update_of_ne e]
        · rw [Function.update_of_ne e2]
      intro n m q hnm hq
      rw [hnone]
      exact h.disj n m q hnm (fun hc => hq ((hnone n q).2 hc))
    · intro p q hq
      obtain ⟨⟨w, h3, h4⟩, h5⟩ := h.pooled p q hq
      have e : q ≠ r := fun e => by rw [e] at h5; rw [h5 i] at h1; cases h1
      refine ⟨⟨w, by simpa only [Function.update_of_ne e] using h3, h4⟩, fun n => ?_⟩
      by_cases e2 : n = i
      · subst e2; rw [Function.update_self, Function.update_of_ne e]; exact h5 n
      · rw [Function.update_of_ne e2]; exact h5 n
    · intro n hn q
      simp only [List.length_set] at hn
      rw [Function.update_of_ne (by omega)]
      exact h.idle n hn q
    · intro n j' x' hn
      rcases set_run hn with ⟨rfl, e⟩ | ⟨e, hn⟩
      · cases e
        rw [Function.update_self]
        exact h2
      · rw [Function.update_of_ne e]
        exact h.run n j' x' hn
  | @alloc _ i j v k r hi hr =>
    have hl := (List.getElem?_eq_some_iff.1 hi).1
    have ho := owns_of_heap_none h hr
    exact ⟨_, inv_gain h hl ho rfl (fun _ _ hq => hq)
      (fun p hp => by obtain ⟨⟨w, h3, _⟩, _⟩ := h.pooled p r hp; rw [hr] at h3; cases h3) h.once (h.run i j _ hi r (ho i))⟩
  | @get _ i j p k r hi hr =>
    have hl := (List.getElem?_eq_some_iff.1 hi).1
    obtain ⟨⟨w, h3, h4⟩, ho⟩ := h.pooled p r hr
    refine ⟨_, inv_gain h hl ho (v := w) (by rw [← h3, Function.update_eq_self]) ?_ ?_ ?_ (h.run i j _ hi r w (ho i) h4)⟩
    · intro q r' hq
      by_cases e : q = p
      · subst e; rw [Function.update_self] at hq; exact List.mem_of_mem_erase hq
      · rw [Function.update_of_ne e] at hq; exact hq
    · intro q hq
      by_cases e : q = p
      · subst e; rw [Function.update_self] at hq; exact (List.Nodup.not_mem_erase (h.once q)) hq
      · rw [Function.update_of_ne e] at hq; exact h.apart p q r (Ne.symm e) hr hq
    · intro q
      by_cases e : q = p
      · subst e; rw [Function.update_self]; exact (h.once q).erase r
      · rw [Function.update_of_ne e]; exact h.once q
  | @getNew _ i j p k r v hi hr hv =>
    have hl := (List.getElem?_eq_some_iff.1 hi).1
    have ho := owns_of_heap_none h hr
    exact ⟨_, inv_gain h hl ho rfl (fun _ _ hq => hq)
      (fun p hp => by obtain ⟨⟨w, h3, _⟩, _⟩ := h.pooled p r hp; rw [hr] at h3; cases h3) h.once (h.run i j _ hi r v (ho i) (hfresh p v hv))⟩
  | @put _ i j p r k hi =>
    have hl := (List.getElem?_eq_some_iff.1 hi).1
    obtain ⟨v, h1, h2, h3⟩ := h.run i j _ hi
    have hnot : ∀ q, r ∉ s.pool q := fun q hq => by rw [(h.pooled q r hq).2 i] at h1; cases h1
    have hle : ∀ n q w, Function.update owns i (Function.update (owns i) r none) n q = some w → owns n q = some w := by
      intro n q w hq
      by_cases e2 : n = i
      · subst e2
        rw [Function.update_self] at hq
        by_cases e : q = r
        · subst e; simp at hq
        · rwa [Function.update_of_ne e] at hq
      · rwa [Function.update_of_ne e2] at hq
    have hle' : ∀ n q, owns n q = none → Function.update owns i (Function.update (owns i) r none) n q = none := by
      intro n q hq
      cases hc : Function.update owns i (Function.update (owns i) r none) n q with
      | none => rfl
      | some w => rw [hle n q w hc] at hq; cases hq
    refine ⟨Function.update owns i (Function.update (owns i) r none), ?_, ?_, ?_, ?_, ?_, ?_, ?_⟩
    · exact fun n q w hq => h.sub n q w (hle n q w hq)
    · intro n m q hnm hq
      exact hle' m q (h.disj n m q hnm fun hc => hq (hle' n q hc))
    · intro q r' hq
      by_cases e : r' = r
      · subst e
        have eq : q = p := by
          by_contra hc
          simp only [Function.update_of_ne hc] at hq
          exact hnot q hq
        subst eq
        refine ⟨⟨v, h.sub i r' v h1, h2⟩, fun n => ?_⟩
        by_cases e2 : n = i
        · subst e2; simp
        · exact hle' n r' (h.disj i n r' (Ne.symm e2) (by rw [h1]; simp))
      · have hm : r' ∈ s.pool q := by
          by_cases e2 : q = p
          · subst e2
            simp only [Function.update_self, List.mem_append, List.mem_singleton, e, or_false] at hq
            exact hq
          · simpa only [Function.update_of_ne e2] using hq
        obtain ⟨h4, h5⟩ := h.pooled q r' hm
        exact ⟨h4, fun n => hle' n r' (h5 n)⟩
    · intro q
      by_cases e : q = p
      · subst e
        simp only [Function.update_self]
        exact List.Nodup.append (h.once q) (List.nodup_singleton r) (by simpa using hnot q)
      · simp only [Function.update_of_ne e]; exact h.once q
    · intro q q' r' hqq hq hq'
      by_cases e : r' = r
      · subst e
        have e1 : ∀ q, r' ∈ Function.update s.pool p (s.pool p ++ [r']) q → q = p := by
          intro q hq
          by_contra hc
          simp only [Function.update_of_ne hc] at hq
          exact hnot q hq
        exact hqq ((e1 q hq).trans (e1 q' hq').symm)
      · have e1 : ∀ q, r' ∈ Function.update s.pool p (s.pool p ++ [r]) q → r' ∈ s.pool q := by
          intro q hq
          by_cases e2 : q = p
          · subst e2
            simp only [Function.update_self, List.mem_append, List.mem_singleton, e, or_false] at hq
            exact hq
          · simpa only [Function.update_of_ne e2] using hq
        exact h.apart q q' r' hqq (e1 q hq) (e1 q' hq')
    · intro n hn q
      simp only [List.length_set] at hn
      exact hle' n q (h.idle n hn q)
    · intro n j' x' hn
      rcases set_run hn with ⟨rfl, e⟩ | ⟨e, hn⟩
      · cases e
        rw [Function.update_self]
        exact h3
      · rw [Function.update_of_ne e]
        exact h.run n j' x' hn
  | drop p r hr =>
    have hle : ∀ q r', r' ∈ Function.update s.pool p ((s.pool p).erase r) q → r' ∈ s.pool q := by
      intro q r' hq
      by_cases e : q = p
      · subst e; rw [Function.update_self] at hq; exact List.mem_of_mem_erase hq
      · rw [Function.update_of_ne e] at hq; exact hq
    refine ⟨owns, h.sub, h.disj, fun q r' hq => h.pooled q r' (hle q r' hq), ?_,
      fun q q' r' hqq h1 h2 => h.apart q q' r' hqq (hle q r' h1) (hle q' r' h2), h.idle, h.run⟩
    intro q
    by_cases e : q = p
    · subst e; simp only [Function.update_self]; exact (h.once q).erase r
    · simp only [Function.update_of_ne e]; exact h.once q

/-- The state before any goroutine has been started. -/
def Sys.init : Sys J P V α := ⟨fun _ => none, fun _ => [], []⟩

theorem inv_init : Inv ok spec (Sys.init : Sys J P V α) (fun _ _ => none) where
  sub := fun _ _ _ h => nomatch h
  disj := fun _ _ _ _ _ => rfl
  pooled := fun _ _ h => nomatch h
  once := fun _ => List.nodup_nil
  apart := fun _ _ _ _ h => nomatch h
  idle := fun _ _ _ => rfl
  run := fun _ _ _ h => nomatch h

/-- Some goroutine or the run time makes a step. -/
def Sys.Next (fresh : P → V → Prop) (start : J → Prog P V α) (s s' : Sys J P V α) : Prop := ∃ a, Sys.Step fresh start a s s'

theorem reach_inv (hfresh : ∀ p v, fresh p v → ok p v) (hstart : ∀ j, wp ok (start j) (fun _ => none) (fun a _ => spec j a))
    {s : Sys J P V α} (h : ReflTransGen (Sys.Next fresh start) Sys.init s) : ∃ owns, Inv ok spec s owns := by
  induction h with
  | refl => exact ⟨_, inv_init⟩
  | tail _ hs ih =>
    obtain ⟨owns, hi⟩ := ih
    obtain ⟨a, hs⟩ := hs
    exact step_inv hfresh hstart hs hi

theorem inv_result {s : Sys J P V α} {owns : Nat → Ref → Option V} (h : Inv ok spec s owns) {i : Nat} {j : J} {a : α}
    (hi : s.threads[i]? = some (j, .ret a)) : spec j a := h.run i j _ hi


/-- No two goroutines are about to access the same object, and nobody accesses an object in a pool. -/
theorem inv_no_race {s : Sys J P V α} {owns : Nat → Ref → Option V} (h : Inv ok spec s owns) {i : Nat} {j : J} {r : Ref} {f : V → V}
    {k : V → Prog P V α} (hi : s.threads[i]? = some (j, .act r f k)) :
    (∀ p, r ∉ s.pool p) ∧ (∀ i' j' f' k', i' ≠ i → s.threads[i']? ≠ some (j', .act r f' k')) ∧
      ∀ i' j' p k', i' ≠ i → s.threads[i']? ≠ some (j', .put p r k') := by
  obtain ⟨v, h1, _⟩ := h.run i j _ hi
  refine ⟨fun p hp => ?_, fun i' j' f' k' hne hi' => ?_, fun i' j' p k' hne hi' => ?_⟩
  · rw [(h.pooled p r hp).2 i] at h1; cases h1
  · obtain ⟨w, h2, _⟩ := h.run i' j' _ hi'
    rw [h.disj i i' r (Ne.symm hne) (by rw [h1]; simp)] at h2
    cases h2
  · obtain ⟨w, h2, _⟩ := h.run i' j' _ hi'
    rw [h.disj i i' r (Ne.symm hne) (by rw [h1]; simp)] at h2
    cases h2

theorem update_bounded {heap : Nat → Option V} {N : Nat} (h : ∀ r : Nat, N ≤ r → heap r = none) (r : Nat) (v : Option V) :
    ∃ N : Nat, ∀ q : Nat, N ≤ q → Function.update heap r v q = none := by
  refine ⟨N + r + 1, fun q hq => ?_⟩
  have h1 : q ≠ r := by omega
  rw [Function.update_of_ne h1]
  exact h q (by omega)

theorem step_bounded {s s' : Sys J P V α} {a : Option Nat} (hs : s.Step fresh start a s') (h : ∃ N, ∀ r, N ≤ r → s.heap r = none) :
    ∃ N, ∀ r, N ≤ r → s'.heap r = none := by
  obtain ⟨N, h⟩ := h
  cases hs with
  | spawn j => exact ⟨N, h⟩
  | act hi hr => exact update_bounded h _ _
  | alloc hi hr => exact update_bounded h _ _
  | get hi hr => exact ⟨N, h⟩
  | getNew hi hr hv => exact update_bounded h _ _
  | put hi => exact ⟨N, h⟩
  | drop p r hr => exact ⟨N, h⟩

theorem reach_bounded {s : Sys J P V α} (h : ReflTransGen (Sys.Next fresh start) Sys.init s) : ∃ N, ∀ r, N ≤ r → s.heap r = none := by
  induction h with
  | refl => exact ⟨0, fun _ _ => rfl⟩
  | tail _ hs ih =>
    obtain ⟨a, hs⟩ := hs
    exact step_bounded hs ih

/-- The goroutine can always go on, alone, until it ends. -/
theorem inv_ends (hfresh : ∀ p v, fresh p v → ok p v) (hex : ∀ p, ∃ v, fresh p v)
    (hstart : ∀ j, wp ok (start j) (fun _ => none) (fun a _ => spec j a)) {i : Nat} {j : J} (x : Prog P V α) :
    ∀ {s : Sys J P V α} {owns : Nat → Ref → Option V}, Inv ok spec s owns → (∃ N, ∀ r, N ≤ r → s.heap r = none) →
      s.threads[i]? = some (j, x) →
      ∃ s' a, ReflTransGen (Sys.Step fresh start (some i)) s s' ∧ s'.threads[i]? = some (j, .ret a) := by
  have self : ∀ {l : List (J × Prog P V α)} {x y}, l[i]? = some x → (l.set i y)[i]? = some y := by
    intro l x y h
    exact List.getElem?_set_self (List.getElem?_eq_some_iff.1 h).1
  have goOn : ∀ {s s1 : Sys J P V α} {owns : Nat → Ref → Option V} {x : Prog P V α}, Inv ok spec s owns → (∃ N, ∀ r, N ≤ r → s.heap r = none) →
      s.Step fresh start (some i) s1 → s1.threads[i]? = some (j, x) →
      (∀ {s : Sys J P V α} {owns : Nat → Ref → Option V}, Inv ok spec s owns → (∃ N, ∀ r, N ≤ r → s.heap r = none) →
        s.threads[i]? = some (j, x) → ∃ s' a, ReflTransGen (Sys.Step fresh start (some i)) s s' ∧ s'.threads[i]? = some (j, .ret a)) →
      ∃ s' a, ReflTransGen (Sys.Step fresh start (some i)) s s' ∧ s'.threads[i]? = some (j, .ret a) := by
    intro s s1 owns x h hb hs hx ih
    obtain ⟨owns1, h1⟩ := step_inv hfresh hstart hs h
    obtain ⟨s', a, h2, h3⟩ := ih h1 (step_bounded hs hb) hx
    exact ⟨s', a, .head hs h2, h3⟩
  induction x with
  | ret a => intro s owns _ _ hi; exact ⟨s, a, .refl, hi⟩
  | act r f k ih =>
    intro s owns h hb hi
    obtain ⟨v, h1, _⟩ := h.run i j _ hi
    exact goOn h hb (.act hi (h.sub i r v h1)) (self hi) (ih v)
  | alloc v k ih =>
    intro s owns h hb hi
    obtain ⟨N, hN⟩ := id hb
    exact goOn h hb (.alloc hi (hN N (Nat.le_refl _))) (self hi) (ih N)
  | get p k ih =>
    intro s owns h hb hi
    obtain ⟨N, hN⟩ := id hb
    obtain ⟨v, hv⟩ := hex p
    exact goOn h hb (.getNew hi (hN N (Nat.le_refl _)) hv) (self hi) (ih N)
  | put p r k ih =>
    intro s owns h hb hi
    exact goOn h hb (.put hi) (self hi) ih

/-- A step of another goroutine or of the run time does not change this one. -/
theorem step_other {s s' : Sys J P V α} {a : Option Nat} (hs : s.Step fresh start a s') {i : Nat} (ha : a ≠ some i) {t : J × Prog P V α}
    (hi : s.threads[i]? = some t) : s'.threads[i]? = some t := by
  have hset : ∀ {n : Nat} {y}, some n ≠ some i → (s.threads.set n y)[i]? = some t := by
    intro n y hn
    rw [List.getElem?_set_ne (fun e => hn (by rw [e]))]
    exact hi
  cases hs with
  | spawn j => simp only [List.getElem?_append_left (List.getElem?_eq_some_iff.1 hi).1]; exact hi
  | act h1 h2 => exact hset ha
  | alloc h1 h2 => exact hset ha
  | get h1 h2 => exact hset ha
  | getNew h1 h2 h3 => exact hset ha
  | put h1 => exact hset ha
  | drop p r hr => exact hi

/-- In every run, every goroutine makes only finitely many steps. -/
theorem finitely_many {σ : Nat → Sys J P V α} {a : Nat → Option Nat} (h : ∀ n, (σ n).Step fresh start (a n) (σ (n + 1))) (i : Nat) :
    ∃ N, ∀ n, N ≤ n → a n ≠ some i := by
  have key : ∀ (x : Prog P V α) (j : J) (n : Nat), (σ n).threads[i]? = some (j, x) → ∃ N, ∀ n, N ≤ n → a n ≠ some i := by
    have first : ∀ {x : Prog P V α} {j : J} {n : Nat}, (σ n).threads[i]? = some (j, x) →
        (∃ N, ∀ n, N ≤ n → a n ≠ some i) ∨ ∃ m, (σ m).threads[i]? = some (j, x) ∧ a m = some i := by
      intro x j n hn
      by_cases hc : ∃ m, n ≤ m ∧ a m = some i
      · right
        obtain ⟨m, ⟨h1, h2⟩, hmin⟩ : ∃ m, (n ≤ m ∧ a m = some i) ∧ ∀ m', m' < m → ¬ (n ≤ m' ∧ a m' = some i) := by
          classical
          exact ⟨Nat.find hc, Nat.find_spec hc, fun m' h => Nat.find_min hc h⟩
        refine ⟨m, ?_, h2⟩
        obtain ⟨d, rfl⟩ := Nat.exists_eq_add_of_le h1
        have : ∀ e, e ≤ d → (σ (n + e)).threads[i]? = some (j, x) := by
          intro e
          induction e with
          | zero => intro _; exact hn
          | succ e ih =>
            intro he
            exact step_other (h (n + e)) (fun hc => hmin (n + e) (by omega) ⟨by omega, hc⟩) (ih (by omega))
        exact this d (Nat.le_refl _)
      · exact .inl ⟨n, fun m hm hc' => hc ⟨m, hm, hc'⟩⟩
    have self : ∀ {l : List (J × Prog P V α)} {x y}, l[i]? = some x → (l.set i y)[i]? = some y := by
      intro l x y h
      exact List.getElem?_set_self (List.getElem?_eq_some_iff.1 h).1
    intro x
    induction x with
    | ret b =>
      intro j n hn
      rcases first hn with hf | ⟨m, h1, h2⟩
      · exact hf
      · exfalso
        have hs := h m
        rw [h2] at hs
        generalize σ (m + 1) = s' at hs
        generalize σ m = s at hs h1
        cases hs <;> rename_i h3 <;> (try rename_i h4 _) <;> simp_all
    | act r f k ih =>
      intro j n hn
      rcases first hn with hf | ⟨m, h1, h2⟩
      · exact hf
      · have hs := h m
        rw [h2] at hs
        have : ∃ v, (σ (m + 1)).threads[i]? = some (j, k v) := by
          generalize σ (m + 1) = s' at hs
          generalize σ m = s at hs h1
          cases hs with
          | act h3 h4 => rw [h1] at h3; cases h3; exact ⟨_, self h1⟩
          | alloc h3 h4 => rw [h1] at h3; cases h3
          | get h3 h4 => rw [h1] at h3; cases h3
          | getNew h3 h4 h5 => rw [h1] at h3; cases h3
          | put h3 => rw [h1] at h3; cases h3
        obtain ⟨v, hv⟩ := this
        exact ih v j (m + 1) hv
    | alloc v k ih =>
      intro j n hn
      rcases first hn with hf | ⟨m, h1, h2⟩
      · exact hf
      · have hs := h m
        rw [h2] at hs
        have : ∃ r, (σ (m + 1)).threads[i]? = some (j, k r) := by
          generalize σ (m + 1) = s' at hs
          generalize σ m = s at hs h1
          cases hs with
          | act h3 h4 => rw [h1] at h3; cases h3
          | alloc h3 h4 => rw [h1] at h3; cases h3; exact ⟨_, self h1⟩
          | get h3 h4 => rw [h1] at h3; cases h3
          | getNew h3 h4 h5 => rw [h1] at h3; cases h3
          | put h3 => rw [h1] at h3; cases h3
        obtain ⟨v, hv⟩ := this
        exact ih v j (m + 1) hv
    | get p k ih =>
      intro j n hn
      rcases first hn with hf | ⟨m, h1, h2⟩
      · exact hf
      · have hs := h m
        rw [h2] at hs
        have : ∃ r, (σ (m + 1)).threads[i]? = some (j, k r) := by
          generalize σ (m + 1) = s' at hs
          generalize σ m = s at hs h1
          cases hs with
          | act h3 h4 => rw [h1] at h3; cases h3
          | alloc h3 h4 => rw [h1] at h3; cases h3
          | get h3 h4 => rw [h1] at h3; cases h3; exact ⟨_, self h1⟩
          | getNew h3 h4 h5 => rw [h1] at h3; cases h3; exact ⟨_, self h1⟩
          | put h3 => rw [h1] at h3; cases h3
        obtain ⟨v, hv⟩ := this
        exact ih v j (m + 1) hv
    | put p r k ih =>
      intro j n hn
      rcases first hn with hf | ⟨m, h1, h2⟩
      · exact hf
      · have hs := h m
        rw [h2] at hs
        have : (σ (m + 1)).threads[i]? = some (j, k) := by
          generalize σ (m + 1) = s' at hs
          generalize σ m = s at hs h1
          cases hs with
          | act h3 h4 => rw [h1] at h3; cases h3
          | alloc h3 h4 => rw [h1] at h3; cases h3
          | get h3 h4 => rw [h1] at h3; cases h3
          | getNew h3 h4 h5 => rw [h1] at h3; cases h3
          | put h3 => rw [h1] at h3; cases h3; exact self h1
        exact ih j (m + 1) this
  by_cases hc : ∃ n, a n = some i
  · obtain ⟨n, hn⟩ := hc
    have hs := h n
    rw [hn] at hs
    have : ∃ j x, (σ n).threads[i]? = some (j, x) := by
      generalize σ (n + 1) = s' at hs
      cases hs with
      | act h3 h4 => exact ⟨_, _, h3⟩
      | alloc h3 h4 => exact ⟨_, _, h3⟩
      | get h3 h4 => exact ⟨_, _, h3⟩
      | getNew h3 h4 h5 => exact ⟨_, _, h3⟩
      | put h3 => exact ⟨_, _, h3⟩
    obtain ⟨j, x, hx⟩ := this
    exact key x j n hx
  · exact ⟨0, fun n _ hn => hc ⟨n, hn⟩⟩

end
end Verif.Pool
