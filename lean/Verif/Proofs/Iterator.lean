import Verif.Model.PostingList
import Verif.Proofs.Compression

namespace Verif
open Spec

/-- Value or "not dereferencable". -/
def ofOpt : Option Nat → Except Err Nat
  | some v => .ok v
  | none => .error .notDereferencable

theorem obsOf_ofOpt (o : Option Nat) : obsOf (ofOpt o) = .elem o := by cases o <;> rfl

theorem obsOf_inj {x : Except Err Nat} {o : Option Nat} (h : obsOf x = .elem o) : x = ofOpt o := by
  cases x with
  | ok v => simp [obsOf] at h; subst h; rfl
  | error e =>
    cases e <;> simp [obsOf] at h <;> subst h <;> rfl

/-- A simulation between iterator states and abstract iterators. -/
structure IterSim (σ : Type) [ListIter σ] where
  Rep : σ → Iter → Prop
  get : ∀ {s t}, Rep s t → ListIter.get s = ofOpt t.get
  hasNext : ∀ {s t}, Rep s t → ListIter.hasNext s = t.hasNext
  next : ∀ {s t}, Rep s t → (ListIter.next s).1 = ofOpt t.next.1 ∧ Rep (ListIter.next s).2 t.next.2
  lowerBound : ∀ {s t} (bnd : Nat), Rep s t →
    (ListIter.lowerBound s bnd).1 = ofOpt (t.lowerBound bnd).1 ∧
    Rep (ListIter.lowerBound s bnd).2 (t.lowerBound bnd).2
  len : ∀ {s t}, Rep s t → ListIter.len s = t.total

theorem IterSim.step {σ} [ListIter σ] (S : IterSim σ) {s : σ} {t : Iter} (h : S.Rep s t) (op : ItOp) :
    (ListIter.step s op).1 = (t.step op).1 ∧ S.Rep (ListIter.step s op).2 (t.step op).2 := by
  cases op with
  | get => simp [ListIter.step, Iter.step, S.get h, obsOf_ofOpt, h]
  | hasNext => simp [ListIter.step, Iter.step, S.hasNext h, h]
  | next => simp [ListIter.step, Iter.step, (S.next h).1, obsOf_ofOpt, (S.next h).2]
  | lowerBound bnd =>
    simp [ListIter.step, Iter.step, (S.lowerBound bnd h).1, obsOf_ofOpt, (S.lowerBound bnd h).2]
  | len => simp [ListIter.step, Iter.step, S.len h, h]

theorem IterSim.run {σ} [ListIter σ] (S : IterSim σ) {s : σ} {t : Iter} (h : S.Rep s t)
    (ops : List ItOp) : ListIter.run s ops = t.run ops := by
  induction ops generalizing s t with
  | nil => rfl
  | cons op ops ih =>
    have := S.step h op
    simp only [ListIter.run, Iter.run, this.1, ih this.2]

/-! ### sort.Search -/

theorem sortSearchLoop_spec (f : Nat → Bool) (n : Nat)
    (hmono : ∀ a b, a ≤ b → b < n → f a = true → f b = true) (i j : Nat) (hij : i ≤ j) (hj : j ≤ n)
    (hi : ∀ a, a < i → f a = false) (hjt : ∀ b, j ≤ b → b < n → f b = true) :
    let r := sortSearchLoop f i j
    r ≤ n ∧ (∀ a, a < r → f a = false) ∧ (∀ b, r ≤ b → b < n → f b = true) := by
  fun_induction sortSearchLoop f i j with
  | case1 i j h m hm ih =>
    have hm1 : m < j := by simp only [m]; omega
    exact ih (by simp only [m]; omega) (by omega) hi
      (fun b hb hbn => hmono m b hb hbn hm)
  | case2 i j h m hm ih =>
    have hm1 : m < j := by simp only [m]; omega
    refine ih (by omega) hj ?_ hjt
    intro a ha
    cases hfa : f a with
    | false => rfl
    | true => exact absurd (hmono a m (by omega) (by omega) hfa) hm
  | case3 i j h =>
    have : i = j := by omega
    subst this
    exact ⟨hj, hi, hjt⟩

theorem drop_eq_dropWhile {l : List Nat} {bnd r : Nat} (hr : r ≤ l.length)
    (h1 : ∀ a (h : a < l.length), a < r → l[a] < bnd)
    (h2 : ∀ (h : r < l.length), bnd ≤ l[r]) : l.dropWhile (· < bnd) = l.drop r := by
  induction l generalizing r with
  | nil => simp
  | cons x xs ih =>
    cases r with
    | zero =>
      have := h2 (by simp)
      simp only [List.getElem_cons_zero] at this
      rw [List.dropWhile_cons_of_neg (by simpa using this)]; rfl
    | succ r =>
      have := h1 0 (by simp) (by omega)
      simp only [List.getElem_cons_zero] at this
      rw [List.dropWhile_cons_of_pos (by simpa using this), List.drop_succ_cons]
      exact ih (by simpa using hr) (fun a h ha => by
        have := h1 (a + 1) (by simpa using h) (by omega); simpa using this)
        (fun h => by have := h2 (by simpa using h); simpa using this)

/-! ### SliceIterator -/

namespace SliceIter

/-- The slice is sorted and the abstract iterator is at `index`. -/
def Rep (s : SliceIter) (t : Iter) : Prop :=
  s.slice.Pairwise (· ≤ ·) ∧ s.index ≤ s.slice.length ∧ t = ⟨s.slice.drop s.index, s.slice.length⟩

theorem drop_head? (l : List Nat) (i : Nat) : (l.drop i).head? = l[i]? := by
  simp [List.head?_drop]

theorem get_rep {s t} (h : Rep s t) : get s = ofOpt t.get := by
  obtain ⟨-, -, rfl⟩ := h
  unfold get isValid Iter.get at'
  rw [drop_head?]
  by_cases h : s.index < s.slice.length
  · simp [h, ofOpt]
  · simp only [h, decide_false, Bool.not_false, if_true]
    rw [List.getElem?_eq_none (by omega)]; rfl

theorem next_rep {s t} (h : Rep s t) : (next s).1 = ofOpt t.next.1 ∧ Rep (next s).2 t.next.2 := by
  obtain ⟨hs, hi, rfl⟩ := h
  unfold next hasNext Iter.next
  by_cases h : s.index + 1 < s.slice.length
  · have h0 : s.slice.drop s.index = s.slice[s.index] :: s.slice[s.index + 1] ::
        s.slice.drop (s.index + 1 + 1) := by
      rw [List.drop_eq_getElem_cons (by omega), List.drop_eq_getElem_cons h]
    simp only [h, decide_true, Bool.not_true, Bool.false_eq_true, if_false, h0, at']
    refine ⟨by simp [List.getElem?_eq_getElem h, ofOpt], hs, by simp; omega, ?_⟩
    simp
  · simp only [h, decide_false, Bool.not_false, if_true]
    have hl : (s.slice.drop s.index).length ≤ 1 := by simp; omega
    match hm : s.slice.drop s.index, hl with
    | [], _ => exact ⟨rfl, hs, hi, by rw [hm]⟩
    | [x], _ => exact ⟨rfl, hs, hi, by rw [hm]⟩

theorem lowerBound_rep {s t} (bnd : Nat) (h : Rep s t) :
    (lowerBound s bnd).1 = ofOpt (t.lowerBound bnd).1 ∧ Rep (lowerBound s bnd).2 (t.lowerBound bnd).2 := by
  obtain ⟨hs, hi, rfl⟩ := h
  unfold lowerBound isValid Iter.lowerBound
  by_cases hv : s.index < s.slice.length
  · simp only [hv, decide_true, Bool.not_true, Bool.false_eq_true, if_false]
    generalize hsl : s.slice.drop s.index = sl
    have hslp : sl.Pairwise (· ≤ ·) := by rw [← hsl]; exact hs.sublist (List.drop_sublist _ _)
    have hsll : sl.length = s.slice.length - s.index := by rw [← hsl]; simp
    generalize hf : (fun i : Nat => match sl[i]? with | some v => decide (bnd ≤ v) | none => false) = f
    have hfv : ∀ a (h : a < sl.length), f a = decide (bnd ≤ sl[a]) := by
      intro a h; rw [← hf]; simp [List.getElem?_eq_getElem h]
    have hspec := sortSearchLoop_spec f sl.length (by
        intro a b hab hb hfa
        rw [hfv a (by omega)] at hfa; rw [hfv b hb]
        simp only [decide_eq_true_eq] at *
        rcases Nat.eq_or_lt_of_le hab with rfl | hlt
        · exact hfa
        · exact Nat.le_trans hfa (List.pairwise_iff_getElem.1 hslp a b (by omega) hb hlt))
      0 sl.length (by omega) (by omega) (by intro a h; omega) (by intro b h1 h2; omega)
    simp only at hspec
    change (let j := sortSearch sl.length f; _) = _ ∧ _
    unfold sortSearch
    obtain ⟨h1, h2, h3⟩ := hspec
    generalize sortSearchLoop f 0 sl.length = r at *
    have hdw : sl.dropWhile (· < bnd) = sl.drop r := drop_eq_dropWhile h1
      (fun a h ha => by have := h2 a ha; rw [hfv a h] at this; simpa using this)
      (fun h => by have := h3 r (by omega) h; rw [hfv r h] at this; simpa using this)
    rw [hdw]
    by_cases hr : sl.length ≤ r
    · simp only [hr, if_true]
      rw [List.drop_eq_nil_of_le hr]
      exact ⟨rfl, hs, by simp, by simp⟩
    · simp only [hr, if_false]
      refine ⟨?_, hs, by simp; omega, ?_⟩
      · unfold at'
        rw [drop_head?, List.getElem?_eq_getElem (by omega)]; rfl
      · simp only [← hsl, List.drop_drop]
  · simp only [hv, decide_false, Bool.not_false, if_true]
    have : s.slice.drop s.index = [] := List.drop_eq_nil_of_le (by omega)
    rw [this]
    exact ⟨rfl, hs, hi, by rw [this]; rfl⟩

/-- The slice iterator simulates the abstract one. -/
def sim : IterSim SliceIter where
  Rep := Rep
  get := get_rep
  hasNext := by
    rintro s t ⟨-, -, rfl⟩
    change hasNext s = _
    simp only [hasNext, Iter.hasNext, List.length_drop]
    congr 1; simp only [eq_iff_iff]; omega
  next := next_rep
  lowerBound := lowerBound_rep
  len := by rintro s t ⟨-, -, rfl⟩; rfl

theorem rep_new {l : List Nat} (h : l.Pairwise (· ≤ ·)) : Rep (new l) (Iter.start l) :=
  ⟨h, by simp [new], by simp [new, Iter.start]⟩

end SliceIter

/-! ### variable-byte posting list -/

namespace VBList

/-- `s` stands on the first element of `t.rem`; the rest is still encoded at the cursor. -/
def Rep (s : VBList) (t : Iter) : Prop :=
  s.size = t.total ∧ s.index + t.rem.length = s.size ∧ (∀ x ∈ t.rem, x < 2 ^ 32) ∧
  ∀ c cs, t.rem = c :: cs → s.current = c ∧
    ∃ rest, s.input.buf.drop s.input.i = varIntEncode cs c ++ rest

theorem next_eq {s : VBList} {x y : Nat} {l : List UInt8} (hcur : s.current = x) (hx : x < 2 ^ 32)
    (hy : y < 2 ^ 32) (hh : s.hasNext = true)
    (hd : s.input.buf.drop s.input.i = encVUInt32 (u32sub y x) ++ l) :
    next s = (.ok y, { s with
      input := ⟨s.input.buf, s.input.i + (encVUInt32 (u32sub y x)).length⟩,
      index := s.index + 1, current := y }) := by
  have hr := readVUInt32_enc (u32sub_lt y x) hd
  unfold next
  rw [hh]
  simp only [Bool.not_true, Bool.false_eq_true, if_false]
  have h : s.input.readVUInt32 = _ := hr
  rw [h]
  simp only [hcur, u32_add_sub hy hx]

theorem next_end {s : VBList} (h : s.size ≤ s.index + 1) : next s = (.error .notDereferencable, s) := by
  unfold next hasNext
  rw [if_pos]; simpa using h

theorem next_rep {s t} (h : Rep s t) : (next s).1 = ofOpt t.next.1 ∧ Rep (next s).2 t.next.2 := by
  have hrep := h
  obtain ⟨hs, hi, hlt, hc⟩ := h
  obtain ⟨rem, total⟩ := t
  simp only at hs hi hlt hc
  match hm : rem with
  | [] =>
    rw [next_end (by simp at hi; omega)]; exact ⟨rfl, hrep⟩
  | [x] =>
    rw [next_end (by simp at hi; omega)]; exact ⟨rfl, hrep⟩
  | x :: y :: ys =>
    obtain ⟨hcur, rest, hd⟩ := hc x (y :: ys) rfl
    simp only [varIntEncode, List.append_assoc] at hd
    have hd2 := drop_add_of_drop hd
    have hx : x < 2 ^ 32 := hlt x (by simp)
    have hy : y < 2 ^ 32 := hlt y (by simp)
    have hh : s.hasNext = true := by unfold hasNext; simp at hi; simp; omega
    rw [next_eq hcur hx hy hh hd]
    obtain ⟨m, hm⟩ : ∃ m, (encVUInt32 (u32sub y x)).length = m := ⟨_, rfl⟩
    rw [hm] at hd2 ⊢
    simp only [Iter.next]
    refine ⟨rfl, hs, by simp at hi ⊢; omega, ?_, ?_⟩
    · intro z hz; exact hlt z (List.mem_cons_of_mem _ hz)
    · intro c cs heq
      simp only [List.cons.injEq] at heq
      obtain ⟨rfl, rfl⟩ := heq
      exact ⟨rfl, rest, hd2⟩

theorem lbLoop_rep {bnd : Nat} : ∀ {k : Nat} {s : VBList} {x : Nat} {xs : List Nat} {n : Nat},
    Rep s ⟨x :: xs, n⟩ → x < bnd → xs.length < k →
    (lbLoop bnd k s).1 = ofOpt (xs.dropWhile (· < bnd)).head? ∧
      Rep (lbLoop bnd k s).2 ⟨xs.dropWhile (· < bnd), n⟩ := by
  intro k
  induction k with
  | zero => intro s x xs n _ _ h; omega
  | succ k ih =>
    intro s x xs n h hx hk
    have hrep := h
    obtain ⟨hs, hi, hlt, hc⟩ := h
    simp only at hs hi
    cases xs with
    | nil =>
      have hh : s.hasNext = false := by unfold hasNext; simp at hi; simp; omega
      unfold lbLoop
      rw [hh]
      simp only [Bool.false_eq_true, if_false, List.dropWhile_nil]
      exact ⟨rfl, hs, by simp, by simp, by simp⟩
    | cons y ys =>
      have hh : s.hasNext = true := by unfold hasNext; simp at hi; simp; omega
      have hnx := next_rep hrep
      simp only [Iter.next] at hnx
      unfold lbLoop
      rw [hh]
      simp only [if_true]
      generalize hnn : s.next = p at hnx
      obtain ⟨v, s'⟩ := p
      simp only at hnx
      rw [hnx.1]
      simp only [ofOpt]
      by_cases hy : bnd ≤ y
      · rw [if_pos hy]
        rw [List.dropWhile_cons_of_neg (by simpa using hy)]
        exact ⟨rfl, hnx.2⟩
      · rw [if_neg hy, List.dropWhile_cons_of_pos (by simpa using hy)]
        exact ih hnx.2 (by omega) (by simp at hk; omega)

theorem lowerBound_rep {s t} (bnd : Nat) (h : Rep s t) :
    (lowerBound s bnd).1 = ofOpt (t.lowerBound bnd).1 ∧ Rep (lowerBound s bnd).2 (t.lowerBound bnd).2 := by
  have hrep := h
  obtain ⟨hs, hi, hlt, hc⟩ := h
  obtain ⟨rem, total⟩ := t
  simp only at hs hi hlt hc
  unfold lowerBound isValid Iter.lowerBound
  match hm : rem with
  | [] =>
    have : ¬ s.index < s.size := by simp at hi; omega
    simp only [this, decide_false, Bool.not_false, if_true]
    exact ⟨rfl, hrep⟩
  | x :: xs =>
    have : s.index < s.size := by simp at hi; omega
    simp only [this, decide_true, Bool.not_true, Bool.false_eq_true, if_false]
    obtain ⟨hcur, -⟩ := hc x xs rfl
    by_cases hx : bnd ≤ x
    · rw [if_pos (by omega), List.dropWhile_cons_of_neg (by simpa using hx), hcur]
      exact ⟨rfl, hrep⟩
    · rw [if_neg (by omega), List.dropWhile_cons_of_pos (by simpa using hx)]
      exact lbLoop_rep hrep (by omega) (by simp at hi; omega)

theorem get_rep {s t} (h : Rep s t) : get s = ofOpt t.get := by
  obtain ⟨hs, hi, hlt, hc⟩ := h
  obtain ⟨rem, total⟩ := t
  simp only at hs hi hlt hc
  unfold get isValid Iter.get
  match rem with
  | [] =>
    have : ¬ s.index < s.size := by simp at hi; omega
    simp [this, ofOpt]
  | x :: xs =>
    have : s.index < s.size := by simp at hi; omega
    simp [this, ofOpt, (hc x xs rfl).1]

/-- The variable-byte posting list simulates the abstract iterator. -/
def sim : IterSim VBList where
  Rep := Rep
  get := get_rep
  hasNext := by
    rintro s t ⟨hs, hi, -, -⟩
    change hasNext s = _
    simp only [hasNext, Iter.hasNext]
    congr 1; simp only [eq_iff_iff]; omega
  next := next_rep
  lowerBound := lowerBound_rep
  len := by rintro s t ⟨hs, -⟩; exact hs

theorem init_eq {x : Nat} {buf l : List UInt8} {n : Nat} (hx : x < 2 ^ 32)
    (hd : buf.drop 0 = encVUInt32 (u32sub x 0) ++ l) :
    init ⟨n, ⟨buf, 0⟩⟩ = .ok ⟨⟨buf, 0 + (encVUInt32 (u32sub x 0)).length⟩, 0, n, x⟩ := by
  have hr := readVUInt32_enc (u32sub_lt x 0) hd
  have h0 : u32sub x 0 = x := by unfold u32sub; omega
  unfold init
  simp only
  rw [hr, h0]

theorem init_rep {l : List Nat} {rest : List UInt8} (hne : l ≠ []) (hl : ∀ x ∈ l, x < 2 ^ 32) :
    ∃ s, init ⟨l.length, ⟨varIntEncode l 0 ++ rest, 0⟩⟩ = .ok s ∧ Rep s (Iter.start l) := by
  obtain ⟨x, xs, rfl⟩ : ∃ x xs, l = x :: xs := by cases l <;> simp_all
  have hx : x < 2 ^ 32 := hl x (by simp)
  have hd : (varIntEncode (x :: xs) 0 ++ rest).drop 0
      = encVUInt32 (u32sub x 0) ++ (varIntEncode xs x ++ rest) := by
    simp [varIntEncode]
  have hd2 := drop_add_of_drop hd
  refine ⟨_, init_eq hx hd, ?_⟩
  obtain ⟨m, hm⟩ : ∃ m, (encVUInt32 (u32sub x 0)).length = m := ⟨_, rfl⟩
  rw [hm] at hd2 ⊢
  refine ⟨rfl, by simp [Iter.start], hl, ?_⟩
  intro c cs heq
  simp only [Iter.start, List.cons.injEq] at heq
  obtain ⟨rfl, rfl⟩ := heq
  exact ⟨rfl, rest, hd2⟩

end VBList

/-! ### bitmap posting list -/

namespace BitmapList
variable {ρ : Roaring}

/-- `s` stands on the first element; the library iterator delivers the rest. -/
def Rep (L : ρ.Lawful) (s : BitmapList ρ) (t : Iter) : Prop :=
  s.length = t.total ∧
  ((t.rem = [] ∧ s.isValid = false) ∨
   ∃ c cs, t.rem = c :: cs ∧ s.isValid = true ∧ s.current = c ∧ L.Rep s.iterator cs)

/-- The bitmap posting list simulates the abstract iterator. -/
def sim (L : ρ.Lawful) : IterSim (BitmapList ρ) where
  Rep := Rep L
  get := by
    rintro s ⟨rem, n⟩ ⟨-, ⟨h1, h2⟩ | ⟨c, cs, h1, h2, h3, -⟩⟩
    · change get s = _
      simp only at h1
      simp [get, h2, Iter.get, h1, ofOpt]
    · change get s = _
      simp only at h1
      simp [get, h2, Iter.get, h1, h3, ofOpt]
  hasNext := by
    rintro s ⟨rem, n⟩ ⟨-, ⟨h1, h2⟩ | ⟨c, cs, h1, h2, h3, h4⟩⟩
    · change hasNext s = _
      simp only at h1
      simp [hasNext, h2, Iter.hasNext, h1]
    · change hasNext s = _
      simp only at h1
      simp only [hasNext, h2, L.hasNext_iff _ _ h4, Iter.hasNext, h1]
      cases cs <;> simp
  next := by
    rintro s ⟨rem, n⟩ ⟨hn, ⟨h1, h2⟩ | ⟨c, cs, h1, h2, h3, h4⟩⟩
    · change (next s).1 = _ ∧ _
      simp only at h1; subst h1
      have : next s = (.error .notDereferencable, s) := by simp [next, hasNext, h2]
      change (next s).1 = _ ∧ Rep L (next s).2 _
      rw [this]
      exact ⟨rfl, hn, .inl ⟨rfl, h2⟩⟩
    · simp only at h1; subst h1
      change (next s).1 = _ ∧ Rep L (next s).2 _
      cases cs with
      | nil =>
        have : next s = (.error .notDereferencable, s) := by
          simp [next, hasNext, h2, L.hasNext_iff _ _ h4]
        rw [this]
        exact ⟨rfl, hn, .inr ⟨c, [], rfl, h2, h3, h4⟩⟩
      | cons y ys =>
        obtain ⟨e1, e2⟩ := L.next_eq _ _ _ h4
        have : next s = (.ok y, { s with iterator := (ρ.next s.iterator).2, current := y }) := by
          simp [next, hasNext, h2, L.hasNext_iff _ _ h4, e1]
        rw [this]
        exact ⟨rfl, hn, .inr ⟨y, ys, rfl, h2, rfl, e2⟩⟩
  lowerBound := by
    rintro s ⟨rem, n⟩ bnd ⟨hn, ⟨h1, h2⟩ | ⟨c, cs, h1, h2, h3, h4⟩⟩
    · simp only at h1; subst h1
      change (lowerBound s bnd).1 = _ ∧ Rep L (lowerBound s bnd).2 _
      have : lowerBound s bnd = (.error .notDereferencable, s) := by simp [lowerBound, h2]
      rw [this]
      exact ⟨rfl, hn, .inl ⟨rfl, h2⟩⟩
    · simp only at h1; subst h1
      change (lowerBound s bnd).1 = _ ∧ Rep L (lowerBound s bnd).2 _
      unfold lowerBound Iter.lowerBound
      simp only [h2, Bool.not_true, Bool.false_eq_true, if_false, h3]
      by_cases hc : bnd ≤ c
      · rw [if_pos hc, List.dropWhile_cons_of_neg (by simpa using hc)]
        exact ⟨rfl, hn, .inr ⟨c, cs, rfl, h2, h3, h4⟩⟩
      · rw [if_neg hc, List.dropWhile_cons_of_pos (by simpa using hc)]
        have h5 := L.advance _ _ bnd h4
        rw [L.hasNext_iff _ _ h5]
        generalize cs.dropWhile (fun x => decide (x < bnd)) = ds at h5
        cases ds with
        | nil => exact ⟨rfl, hn, .inl ⟨rfl, rfl⟩⟩
        | cons y ys =>
          obtain ⟨e1, e2⟩ := L.next_eq _ _ _ h5
          simp only [List.isEmpty_cons, Bool.not_false, Bool.not_true, Bool.false_eq_true, if_false]
          rw [e1]
          exact ⟨rfl, hn, .inr ⟨y, ys, rfl, by simp, rfl, e2⟩⟩
  len := by rintro s t ⟨h, -⟩; exact h

theorem init_rep (L : ρ.Lawful) {l : List Nat} {n : Nat} (hne : l ≠ []) (hl : ∀ x ∈ l, x < 2 ^ 32)
    (hs : l.Pairwise (· < ·)) :
    ∃ s, init ρ ⟨n, ⟨ρ.writeTo l, 0⟩⟩ = .ok s ∧ Rep L s (Iter.start l) := by
  obtain ⟨b, s, h1, h2, h3, h4, h5⟩ := L.roundtrip l hl
  have heq : s = l := List.Perm.eq_of_pairwise (fun a b _ _ h h' => by omega) h2 hs
    ((List.perm_ext_iff_of_nodup (h2.imp fun h => by omega) (hs.imp fun h => by omega)).2 h3)
  subst heq
  obtain ⟨x, xs, rfl⟩ : ∃ x xs, s = x :: xs := by cases s <;> simp_all
  obtain ⟨e1, e2⟩ := L.next_eq _ _ _ h5
  refine ⟨⟨(ρ.next (ρ.iterator b)).2, (ρ.next (ρ.iterator b)).1, true, ρ.cardinality b⟩, ?_,
    h4, .inr ⟨x, xs, rfl, rfl, e1, e2⟩⟩
  unfold init
  simp [h1, L.hasNext_iff _ _ h5]

end BitmapList

end Verif
