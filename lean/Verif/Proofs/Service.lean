import Verif.Spec.Service
import Mathlib.Tactic.SplitIfs
namespace Verif
open Spec (lastPublication SeesHistory)
variable {I D : Type}

/-- Holds the write lock. -/
def SvcThread.isW : SvcThread I D → Bool
  | .locked .. | .half .. | .both .. => true
  | _ => false

/-- Holds a read lock. -/
def SvcThread.isR : SvcThread I D → Bool
  | .rlocked .. | .gotIndex .. | .gotBoth .. => true
  | _ => false

theorem lastPublication_append (h : List (Publication I D)) (p : Publication I D) (name : String) :
    lastPublication (h ++ [p]) name = if p.name = name then some p else lastPublication h name := by
  unfold lastPublication
  rw [List.reverse_append, List.reverse_singleton, List.singleton_append, List.find?_cons]
  by_cases hn : p.name = name
  · rw [if_pos hn, beq_iff_eq.2 hn]
  · rw [if_neg hn, beq_eq_false_iff_ne.2 hn]

/-- What the local data of a goroutine says. -/
def ThreadOk (log : List (Publication I D)) : SvcThread I D → Prop
  | .reading _ since | .rlocked _ since => since ≤ log.length
  | .gotIndex name since o => since ≤ log.length ∧ o = (lastPublication log name).map Publication.idx
  | .gotBoth name since o od => since ≤ log.length ∧ o = (lastPublication log name).map Publication.idx ∧
      od = (lastPublication log name).map Publication.dict
  | .serving name since o od => ∃ k, since ≤ k ∧ k ≤ log.length ∧
      o = (lastPublication (log.take k) name).map Publication.idx ∧
      od = (lastPublication (log.take k) name).map Publication.dict
  | _ => True

/-- A publication belongs to a goroutine that has written both maps. -/
def PubOk (threads : List (SvcThread I D)) (p : Publication I D) : Prop :=
  threads[p.tid]? = some (.both p.name p.idx p.dict) ∨ threads[p.tid]? = some (.added p.name none)

/-- The invariant. -/
structure SvcInv (s : SvcState I D) : Prop where
  nR : s.threads.countP SvcThread.isR = s.readers
  nW : s.threads.countP SvcThread.isW = if s.writer then 1 else 0
  excl : s.writer = true → s.readers = 0
  dicts : ∀ name, s.dictionaries name = (lastPublication s.log name).map Publication.dict
  idxs : (∀ (i : Nat) name idx d, s.threads[i]? ≠ some (.half name idx d)) →
    ∀ name, s.indexes name = (lastPublication s.log name).map Publication.idx
  idxsHalf : ∀ (i : Nat) name idx d, s.threads[i]? = some (.half name idx d) →
    ∀ n, s.indexes n = if n = name then some idx else (lastPublication s.log n).map Publication.idx
  threads : ∀ t ∈ s.threads, ThreadOk s.log t
  pubs : ∀ p ∈ s.log, PubOk s.threads p
  done : ∀ (i : Nat) name, s.threads[i]? = some (.added name none) → ∃ p ∈ s.log, p.tid = i ∧ p.name = name
  both : ∀ (i : Nat) name idx d, s.threads[i]? = some (.both name idx d) → ⟨name, idx, d, i⟩ ∈ s.log

theorem countP_set' (p : SvcThread I D → Bool) (l : List (SvcThread I D)) (i : Nat) (a b : SvcThread I D)
    (h : l[i]? = some a) :
    (l.set i b).countP p + (if p a then 1 else 0) = l.countP p + (if p b then 1 else 0) := by
  induction l generalizing i with
  | nil => simp at h
  | cons x l ih =>
    cases i with
    | zero =>
      simp only [List.getElem?_cons_zero, Option.some.injEq] at h
      subst h
      simp only [List.set_cons_zero, List.countP_cons]
      omega
    | succ i =>
      simp only [List.getElem?_cons_succ] at h
      have := ih i h
      simp only [List.set_cons_succ, List.countP_cons]
      omega

theorem get_set {l : List (SvcThread I D)} {i j : Nat} {a b c : SvcThread I D} (h : l[i]? = some a)
    (hc : (l.set i b)[j]? = some c) : (j = i ∧ c = b) ∨ (j ≠ i ∧ l[j]? = some c) := by
  by_cases hij : j = i
  · subst hij
    left
    have hlt : j < l.length := by
      rcases Nat.lt_or_ge j l.length with h' | h'
      · exact h'
      · rw [List.getElem?_eq_none h'] at h; cases h
    rw [List.getElem?_set_self hlt] at hc
    exact ⟨rfl, (Option.some.inj hc).symm⟩
  · right
    rw [List.getElem?_set_ne (fun h => hij h.symm)] at hc
    exact ⟨hij, hc⟩

theorem mem_of_get {l : List (SvcThread I D)} {i : Nat} {a : SvcThread I D} (h : l[i]? = some a) : a ∈ l :=
  List.mem_of_getElem? h

theorem count_pos {p : SvcThread I D → Bool} {l : List (SvcThread I D)} {i : Nat} {a : SvcThread I D}
    (h : l[i]? = some a) (hp : p a = true) : 0 < l.countP p :=
  List.countP_pos_iff.2 ⟨a, mem_of_get h, hp⟩

theorem count_two {p : SvcThread I D → Bool} {l : List (SvcThread I D)} {i j : Nat} {a b : SvcThread I D}
    (hi : l[i]? = some a) (hj : l[j]? = some b) (hij : i ≠ j) (ha : p a = true) (hb : p b = true) :
    2 ≤ l.countP p := by
  have h1 := countP_set' p l i a .listed hi
  have h2 : (l.set i .listed)[j]? = some b := by rw [List.getElem?_set_ne hij]; exact hj
  by_cases hl : p .listed = true
  · rw [ha, hl] at h1
    -- use a different argument: replace nothing
    have : ∀ (l : List (SvcThread I D)) (i j : Nat), l[i]? = some a → l[j]? = some b → i < j → 2 ≤ l.countP p := by
      intro l
      induction l with
      | nil => intro i j h; simp at h
      | cons x l ih =>
        intro i j h1 h2 hlt
        cases j with
        | zero => omega
        | succ j =>
          simp only [List.getElem?_cons_succ] at h2
          cases i with
          | zero =>
            simp only [List.getElem?_cons_zero, Option.some.injEq] at h1
            subst h1
            have := count_pos h2 hb
            rw [List.countP_cons, if_pos ha]; omega
          | succ i =>
            simp only [List.getElem?_cons_succ] at h1
            have := ih i j h1 h2 (by omega)
            rw [List.countP_cons]; omega
    rcases Nat.lt_or_ge i j with h | h
    · exact this l i j hi hj h
    · have h' : j < i := by omega
      have : ∀ (l : List (SvcThread I D)) (i j : Nat), l[i]? = some a → l[j]? = some b → j < i → 2 ≤ l.countP p := by
        intro l
        induction l with
        | nil => intro i j h; simp at h
        | cons x l ih =>
          intro i j h1 h2 hlt
          cases i with
          | zero => omega
          | succ i =>
            simp only [List.getElem?_cons_succ] at h1
            cases j with
            | zero =>
              simp only [List.getElem?_cons_zero, Option.some.injEq] at h2
              subst h2
              have := count_pos h1 ha
              rw [List.countP_cons, if_pos hb]; omega
            | succ j =>
              simp only [List.getElem?_cons_succ] at h2
              have := ih i j h1 h2 (by omega)
              rw [List.countP_cons]; omega
      exact this l i j hi hj h'
  · have := count_pos h2 hb
    rw [if_pos ha, if_neg hl] at h1
    omega

theorem threadOk_mono (log : List (Publication I D)) (p : Publication I D) (t : SvcThread I D)
    (hr : t.isR = false) (h : ThreadOk log t) : ThreadOk (log ++ [p]) t := by
  cases t with
  | reading name since => simp only [ThreadOk, List.length_append] at h ⊢; omega
  | rlocked | gotIndex | gotBoth => simp [SvcThread.isR] at hr
  | serving name since o od =>
    obtain ⟨k, h1, h2, h3, h4⟩ := h
    refine ⟨k, h1, by rw [List.length_append]; omega, ?_, ?_⟩
    · rw [List.take_append_of_le_length h2]; exact h3
    · rw [List.take_append_of_le_length h2]; exact h4
  | _ => trivial

theorem svcInv_init : SvcInv (newService : SvcState I D) where
  nR := rfl
  nW := rfl
  excl := by intro h; cases h
  dicts := fun _ => rfl
  idxs := fun _ _ => rfl
  idxsHalf := by intro i name idx d h; simp [newService] at h
  threads := by intro t h; simp [newService] at h
  pubs := by intro p h; simp [newService] at h
  done := by intro i name h; simp [newService] at h
  both := by intro i name idx d h; simp [newService] at h

theorem pubOk_append {threads : List (SvcThread I D)} {p : Publication I D} (t : SvcThread I D)
    (h : PubOk threads p) : PubOk (threads ++ [t]) p := by
  have key : ∀ c, threads[p.tid]? = some c → (threads ++ [t])[p.tid]? = some c := by
    intro c hc
    have hlt : p.tid < threads.length := by
      rcases Nat.lt_or_ge p.tid threads.length with h' | h'
      · exact h'
      · rw [List.getElem?_eq_none h'] at hc; cases hc
    rw [List.getElem?_append_left hlt]; exact hc
  rcases h with h | h
  · exact Or.inl (key _ h)
  · exact Or.inr (key _ h)

theorem get_append {l : List (SvcThread I D)} {t c : SvcThread I D} {i : Nat} (h : (l ++ [t])[i]? = some c) :
    l[i]? = some c ∨ c = t := by
  rcases Nat.lt_or_ge i l.length with h' | h'
  · rw [List.getElem?_append_left h'] at h; exact Or.inl h
  · rw [List.getElem?_append_right h'] at h
    right
    have := List.mem_of_getElem? h
    simpa using this

/-- Start of a goroutine. -/
theorem svcInv_call {s : SvcState I D} (h : SvcInv s) (t : SvcThread I D) (hR : t.isR = false) (hW : t.isW = false)
    (ht : ThreadOk s.log t) (hn : ∀ name, t ≠ .added name none) :
    SvcInv { s with threads := s.threads ++ [t] } where
  nR := by
    show (s.threads ++ [t]).countP _ = _
    rw [List.countP_append, h.nR]; simp [hR]
  nW := by
    show (s.threads ++ [t]).countP _ = _
    rw [List.countP_append, h.nW]; simp [hW]
  excl := h.excl
  dicts := h.dicts
  idxs := by
    intro hno
    apply h.idxs
    intro i name idx d hc
    have hlt : i < s.threads.length := by
      rcases Nat.lt_or_ge i s.threads.length with h' | h'
      · exact h'
      · rw [List.getElem?_eq_none h'] at hc; cases hc
    apply hno i name idx d
    show (s.threads ++ [t])[i]? = _
    rw [List.getElem?_append_left hlt]; exact hc
  idxsHalf := by
    intro i name idx d hc
    rcases get_append hc with h' | h'
    · exact h.idxsHalf i name idx d h'
    · subst h'; simp [SvcThread.isW] at hW
  threads := by
    intro x hx
    rcases List.mem_append.1 hx with h' | h'
    · exact h.threads x h'
    · rw [List.mem_singleton] at h'; subst h'; exact ht
  pubs := fun p hp => pubOk_append t (h.pubs p hp)
  done := by
    intro i name hc
    rcases get_append hc with h' | h'
    · exact h.done i name h'
    · exact absurd h'.symm (hn name)
  both := by
    intro i name idx d hc
    rcases get_append hc with h' | h'
    · exact h.both i name idx d h'
    · subst h'; simp [SvcThread.isW] at hW

theorem pubOk_set {threads : List (SvcThread I D)} {i : Nat} {a b : SvcThread I D} {p : Publication I D}
    (h : threads[i]? = some a) (hp : PubOk threads p)
    (hab : (∃ name idx d, a = .both name idx d ∧ b = .added name none) ∨
      (∀ name idx d, a ≠ .both name idx d) ∧ ∀ name, a ≠ .added name none) : PubOk (threads.set i b) p := by
  by_cases hi : p.tid = i
  · have hlt : i < threads.length := by
      rcases Nat.lt_or_ge i threads.length with h' | h'
      · exact h'
      · rw [List.getElem?_eq_none h'] at h; cases h
    rcases hab with ⟨name, idx, d, rfl, rfl⟩ | ⟨h1, h2⟩
    · right
      rw [hi, List.getElem?_set_self hlt]
      rcases hp with hp | hp
      · rw [hi, h] at hp
        injection hp with hp; injection hp with e1; rw [e1]
      · rw [hi, h] at hp
        injection hp with hp; cases hp
    · rcases hp with hp | hp
      · rw [hi, h] at hp; exact absurd (Option.some.inj hp) (h1 _ _ _)
      · rw [hi, h] at hp; exact absurd (Option.some.inj hp) (h2 _)
  · rcases hp with hp | hp
    · left; rw [List.getElem?_set_ne (fun h => hi h.symm)]; exact hp
    · right; rw [List.getElem?_set_ne (fun h => hi h.symm)]; exact hp

/-- A step of goroutine `i` that touches neither the maps nor the log. -/
theorem svcInv_local {s : SvcState I D} (h : SvcInv s) {i : Nat} {a b : SvcThread I D}
    (hi : s.threads[i]? = some a) (w : Bool) (r : Nat)
    (hR : r + (if a.isR then 1 else 0) = s.readers + (if b.isR then 1 else 0))
    (hW : (if w then 1 else 0) + (if a.isW then 1 else 0) = (if s.writer then 1 else 0) + (if b.isW then 1 else 0))
    (hex : w = true → r = 0) (ht : ThreadOk s.log b)
    (hah : ∀ name idx d, a ≠ .half name idx d) (hbh : ∀ name idx d, b ≠ .half name idx d)
    (hbb : ∀ name idx d, b ≠ .both name idx d)
    (hab : (∃ name idx d, a = .both name idx d ∧ b = .added name none) ∨
      ((∀ name idx d, a ≠ .both name idx d) ∧ ∀ name, a ≠ .added name none) ∧ ∀ name, b ≠ .added name none) :
    SvcInv { s with writer := w, readers := r, threads := s.threads.set i b } where
  nR := by
    have := countP_set' SvcThread.isR s.threads i a b hi
    rw [h.nR] at this
    show (s.threads.set i b).countP _ = r
    omega
  nW := by
    have := countP_set' SvcThread.isW s.threads i a b hi
    rw [h.nW] at this
    show (s.threads.set i b).countP _ = if w then 1 else 0
    omega
  excl := hex
  dicts := h.dicts
  idxs := by
    intro hno
    apply h.idxs
    intro j name idx d hc
    by_cases hij : j = i
    · subst hij; rw [hi] at hc; exact hah _ _ _ (Option.some.inj hc)
    · apply hno j name idx d
      show (s.threads.set i b)[j]? = _
      rw [List.getElem?_set_ne (fun h => hij h.symm)]; exact hc
  idxsHalf := by
    intro j name idx d hc
    rcases get_set hi hc with ⟨_, h'⟩ | ⟨_, h'⟩
    · exact absurd h'.symm (hbh _ _ _)
    · exact h.idxsHalf j name idx d h'
  threads := by
    intro x hx
    rcases List.mem_or_eq_of_mem_set hx with h' | h'
    · exact h.threads x h'
    · subst h'; exact ht
  pubs := by
    intro p hp
    refine pubOk_set hi (h.pubs p hp) ?_
    rcases hab with h' | ⟨h', _⟩
    · exact Or.inl h'
    · exact Or.inr h'
  done := by
    intro j name hc
    rcases get_set hi hc with ⟨rfl, h'⟩ | ⟨_, h'⟩
    · rcases hab with ⟨n, idx, d, ha, hb⟩ | ⟨_, h2⟩
      · subst ha
        rw [← h'] at hb
        injection hb with e
        subst e
        exact ⟨_, h.both _ _ _ _ hi, rfl, rfl⟩
      · exact absurd h'.symm (h2 _)
    · exact h.done j name h'
  both := by
    intro j name idx d hc
    rcases get_set hi hc with ⟨_, h'⟩ | ⟨_, h'⟩
    · exact absurd h'.symm (hbb _ _ _)
    · exact h.both j name idx d h'

theorem svcInv_step {s s' : SvcState I D} (h : SvcInv s) (hs : SvcStep s s') : SvcInv s' := by
  cases hs with
  | callAdd name => exact svcInv_call h _ rfl rfl trivial (by intro n hc; cases hc)
  | callRead name => exact svcInv_call h _ rfl rfl (Nat.le_refl _) (by intro n hc; cases hc)
  | callList => exact svcInv_call h _ rfl rfl trivial (by intro n hc; cases hc)
  | buildErr hi _ =>
    exact svcInv_local h hi s.writer s.readers (by simp [SvcThread.isR]) (by simp [SvcThread.isW]) h.excl trivial
      (by intros; intro hc; cases hc) (by intros; intro hc; cases hc) (by intros; intro hc; cases hc)
      (Or.inr ⟨⟨(by intros; intro hc; cases hc), (by intros; intro hc; cases hc)⟩, by intros; intro hc; cases hc⟩)
  | buildOk hi _ =>
    exact svcInv_local h hi s.writer s.readers (by simp [SvcThread.isR]) (by simp [SvcThread.isW]) h.excl trivial
      (by intros; intro hc; cases hc) (by intros; intro hc; cases hc) (by intros; intro hc; cases hc)
      (Or.inr ⟨⟨(by intros; intro hc; cases hc), (by intros; intro hc; cases hc)⟩, by intros; intro hc; cases hc⟩)
  | lock hi hw hr =>
    exact svcInv_local h hi true s.readers (by simp [SvcThread.isR]) (by simp [SvcThread.isW, hw]) (fun _ => hr) trivial
      (by intros; intro hc; cases hc) (by intros; intro hc; cases hc) (by intros; intro hc; cases hc)
      (Or.inr ⟨⟨(by intros; intro hc; cases hc), (by intros; intro hc; cases hc)⟩, by intros; intro hc; cases hc⟩)
  | unlock hi =>
    have hw : s.writer = true := by
      have := count_pos (p := SvcThread.isW) hi rfl
      rw [h.nW] at this
      by_contra hc; simp [hc] at this
    exact svcInv_local h hi false s.readers (by simp [SvcThread.isR]) (by simp [SvcThread.isW, hw])
      (by intro hc; cases hc) trivial
      (by intros; intro hc; cases hc) (by intros; intro hc; cases hc) (by intros; intro hc; cases hc)
      (Or.inl ⟨_, _, _, rfl, rfl⟩)
  | rlock hi hw =>
    exact svcInv_local h hi s.writer (s.readers + 1) (by simp [SvcThread.isR]) (by simp [SvcThread.isW])
      (by intro hc; rw [hw] at hc; cases hc) (by have := h.threads _ (mem_of_get hi); exact this)
      (by intros; intro hc; cases hc) (by intros; intro hc; cases hc) (by intros; intro hc; cases hc)
      (Or.inr ⟨⟨(by intros; intro hc; cases hc), (by intros; intro hc; cases hc)⟩, by intros; intro hc; cases hc⟩)
  | getIndex hi =>
    have hpos := count_pos (p := SvcThread.isR) hi rfl
    rw [h.nR] at hpos
    have hw : s.writer = false := by
      by_contra hc
      have := h.excl (by simpa using hc)
      omega
    have hno : ∀ (i : Nat) name idx d, s.threads[i]? ≠ some (.half name idx d) := by
      intro i name idx d hc
      have := count_pos (p := SvcThread.isW) hc rfl
      rw [h.nW, hw] at this
      simp at this
    exact svcInv_local h hi s.writer s.readers (by simp [SvcThread.isR]) (by simp [SvcThread.isW]) h.excl
      ⟨h.threads _ (mem_of_get hi), h.idxs hno _⟩
      (by intros; intro hc; cases hc) (by intros; intro hc; cases hc) (by intros; intro hc; cases hc)
      (Or.inr ⟨⟨(by intros; intro hc; cases hc), (by intros; intro hc; cases hc)⟩, by intros; intro hc; cases hc⟩)
  | getDict hi =>
    obtain ⟨h1, h2⟩ := h.threads _ (mem_of_get hi)
    exact svcInv_local h hi s.writer s.readers (by simp [SvcThread.isR]) (by simp [SvcThread.isW]) h.excl
      ⟨h1, h2, h.dicts _⟩
      (by intros; intro hc; cases hc) (by intros; intro hc; cases hc) (by intros; intro hc; cases hc)
      (Or.inr ⟨⟨(by intros; intro hc; cases hc), (by intros; intro hc; cases hc)⟩, by intros; intro hc; cases hc⟩)
  | runlock hi =>
    have hpos := count_pos (p := SvcThread.isR) hi rfl
    rw [h.nR] at hpos
    obtain ⟨h1, h2, h3⟩ := h.threads _ (mem_of_get hi)
    refine svcInv_local h hi s.writer (s.readers - 1) ?_ (by simp [SvcThread.isW])
      (by intro hc; have := h.excl hc; omega) ⟨s.log.length, h1, Nat.le_refl _, by rw [List.take_length]; exact h2,
        by rw [List.take_length]; exact h3⟩
      (by intros; intro hc; cases hc) (by intros; intro hc; cases hc) (by intros; intro hc; cases hc)
      (Or.inr ⟨⟨(by intros; intro hc; cases hc), (by intros; intro hc; cases hc)⟩, by intros; intro hc; cases hc⟩)
    simp only [SvcThread.isR, if_true]
    simp
    omega
  | list hi =>
    exact svcInv_local h hi s.writer s.readers (by simp [SvcThread.isR]) (by simp [SvcThread.isW]) h.excl trivial
      (by intros; intro hc; cases hc) (by intros; intro hc; cases hc) (by intros; intro hc; cases hc)
      (Or.inr ⟨⟨(by intros; intro hc; cases hc), (by intros; intro hc; cases hc)⟩, by intros; intro hc; cases hc⟩)
  | @putIndex i name idx d hi =>
    have hw1 : s.threads.countP SvcThread.isW ≤ 1 := by
      rw [h.nW]; split <;> omega
    have hno : ∀ (j : Nat) name idx d, s.threads[j]? ≠ some (.half name idx d) := by
      intro j name' idx' d' hc
      by_cases hij : j = i
      · subst hij; rw [hi] at hc; cases hc
      · have := count_two (p := SvcThread.isW) hc hi hij rfl rfl
        omega
    have hidx := h.idxs hno
    refine ⟨?_, ?_, h.excl, h.dicts, ?_, ?_, ?_, ?_, ?_, ?_⟩
    · have := countP_set' SvcThread.isR s.threads i _ (.half name idx d) hi
      simp only [SvcThread.isR] at this
      rw [← h.nR]; simpa using this
    · have := countP_set' SvcThread.isW s.threads i _ (.half name idx d) hi
      simp only [SvcThread.isW] at this
      rw [← h.nW]; simpa using this
    · intro hno'
      exfalso
      apply hno' i name idx d
      show (s.threads.set i _)[i]? = _
      rw [List.getElem?_set_self]
      exact (List.getElem?_eq_some_iff.1 hi).1
    · intro j name' idx' d' hc n
      rcases get_set hi hc with ⟨rfl, h'⟩ | ⟨_, h'⟩
      · injection h' with e1 e2 e3
        subst e1 e2 e3
        show Function.update s.indexes name' (some idx') n = _
        rw [Function.update_apply]
        split_ifs
        · rfl
        · exact hidx n
      · exact absurd h' (hno _ _ _ _)
    · intro x hx
      rcases List.mem_or_eq_of_mem_set hx with h' | h'
      · exact h.threads x h'
      · subst h'; trivial
    · intro p hp
      exact pubOk_set hi (h.pubs p hp) (Or.inr ⟨(by intros; intro hc; cases hc), (by intros; intro hc; cases hc)⟩)
    · intro j name' hc
      rcases get_set hi hc with ⟨_, h'⟩ | ⟨_, h'⟩
      · cases h'
      · exact h.done j name' h'
    · intro j name' idx' d' hc
      rcases get_set hi hc with ⟨_, h'⟩ | ⟨_, h'⟩
      · cases h'
      · exact h.both j name' idx' d' h'
  | @putDict i name idx d hi =>
    have hw1 : s.threads.countP SvcThread.isW ≤ 1 := by
      rw [h.nW]; split <;> omega
    have hw : s.writer = true := by
      have := count_pos (p := SvcThread.isW) hi rfl
      rw [h.nW] at this
      by_contra hc; simp [hc] at this
    have hr0 := h.excl hw
    have hnoR : ∀ t ∈ s.threads, t.isR = false := by
      intro t ht
      by_contra hc
      have : 0 < s.threads.countP SvcThread.isR := List.countP_pos_iff.2 ⟨t, ht, by simpa using hc⟩
      rw [h.nR] at this; omega
    have hidx := h.idxsHalf i name idx d hi
    refine ⟨?_, ?_, h.excl, ?_, ?_, ?_, ?_, ?_, ?_, ?_⟩
    · have := countP_set' SvcThread.isR s.threads i _ (.both name idx d) hi
      simp only [SvcThread.isR] at this
      rw [← h.nR]; simpa using this
    · have := countP_set' SvcThread.isW s.threads i _ (.both name idx d) hi
      simp only [SvcThread.isW] at this
      rw [← h.nW]; simpa using this
    · intro n
      show Function.update s.dictionaries name (some d) n = _
      rw [Function.update_apply, lastPublication_append]
      by_cases hn : n = name
      · rw [if_pos hn, if_pos hn.symm]; rfl
      · rw [if_neg hn, if_neg (fun h => hn h.symm)]; exact h.dicts n
    · intro _ n
      show s.indexes n = _
      rw [lastPublication_append, hidx n]
      by_cases hn : n = name
      · rw [if_pos hn, if_pos hn.symm]; rfl
      · rw [if_neg hn, if_neg (fun h => hn h.symm)]
    · intro j name' idx' d' hc
      rcases get_set hi hc with ⟨_, h'⟩ | ⟨hij, h'⟩
      · cases h'
      · have := count_two (p := SvcThread.isW) h' hi hij rfl rfl
        omega
    · intro x hx
      rcases List.mem_or_eq_of_mem_set hx with h' | h'
      · exact threadOk_mono _ _ _ (hnoR x h') (h.threads x h')
      · subst h'; trivial
    · intro p hp
      rcases List.mem_append.1 hp with h' | h'
      · exact pubOk_set hi (h.pubs p h') (Or.inr ⟨(by intros; intro hc; cases hc), (by intros; intro hc; cases hc)⟩)
      · rw [List.mem_singleton] at h'
        subst h'
        left
        show (s.threads.set i _)[i]? = _
        rw [List.getElem?_set_self]
        exact (List.getElem?_eq_some_iff.1 hi).1
    · intro j name' hc
      rcases get_set hi hc with ⟨_, h'⟩ | ⟨_, h'⟩
      · cases h'
      · obtain ⟨p, hp, h2⟩ := h.done j name' h'
        exact ⟨p, List.mem_append_left _ hp, h2⟩
    · intro j name' idx' d' hc
      rcases get_set hi hc with ⟨rfl, h'⟩ | ⟨_, h'⟩
      · injection h' with e1 e2 e3
        subst e1 e2 e3
        exact List.mem_append_right _ (List.mem_singleton.2 rfl)
      · exact List.mem_append_left _ (h.both j name' idx' d' h')

theorem svcInv {s : SvcState I D} (h : SvcReachable s) : SvcInv s := by
  induction h with
  | init => exact svcInv_init
  | step _ hs ih => exact svcInv_step ih hs

end Verif
