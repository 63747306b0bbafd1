import Verif.Model.Snowball
import Verif.Spec.Stemming
import Mathlib.Data.List.Basic
import Mathlib.Data.List.Infix
/- The operations of the Snowball library on an environment in backward mode, as operations on lists of characters. -/
namespace Verif.Snowball
open Stemming

/-- An environment whose text is `h ++ w` with `LimitBackward` behind `h` and the cursor `n` characters behind that. -/
def env (h w : List Char) (n bra ket : Nat) : Env := ⟨h ++ w, h.length + n, h.length + w.length, h.length, bra, ket⟩

theorem cut_some {ends : List (List Char)} {w r s : List Char} : cut ends w = some (r, s) ↔
    w = r ++ s ∧ s ∈ ends ∧ ∀ t, t <:+ w → t ∈ ends → t.length ≤ s.length := by
  induction w generalizing r with
  | nil =>
    unfold cut
    split
    · rename_i h
      constructor
      · rintro h'
        obtain ⟨rfl, rfl⟩ : [] = r ∧ [] = s := by simpa using h'
        exact ⟨rfl, h, fun t ht _ => by simp [List.suffix_nil.1 ht]⟩
      · rintro ⟨h1, h2, h3⟩
        obtain ⟨rfl, rfl⟩ : r = [] ∧ s = [] := by simpa using h1
        rfl
    · rename_i h
      simp only [reduceCtorEq, false_iff]
      rintro ⟨h1, h2, h3⟩
      obtain ⟨rfl, rfl⟩ : r = [] ∧ s = [] := by simpa using h1
      exact h h2
  | cons c w ih =>
    unfold cut
    split
    · rename_i h
      constructor
      · intro h'
        obtain ⟨rfl, rfl⟩ : [] = r ∧ c :: w = s := by simpa using h'
        exact ⟨rfl, h, fun t ht _ => ht.length_le⟩
      · rintro ⟨h1, h2, h3⟩
        have := h3 _ List.suffix_rfl h
        have hl := congrArg List.length h1
        simp only [List.length_append] at hl
        have hr : r = [] := by
          cases r with
          | nil => rfl
          | cons _ _ => simp at hl this; omega
        subst hr
        simp at h1
        simp [h1]
    · rename_i h
      rw [Option.map_eq_some_iff]
      constructor
      · rintro ⟨⟨r', s'⟩, h', h''⟩
        obtain ⟨rfl, rfl⟩ : c :: r' = r ∧ s' = s := by simpa using h''
        obtain ⟨h1, h2, h3⟩ := ih.1 h'
        refine ⟨by simp [h1], h2, fun t ht he => ?_⟩
        rcases List.suffix_cons_iff.1 ht with rfl | ht
        · exact absurd he h
        · exact h3 t ht he
      · rintro ⟨h1, h2, h3⟩
        cases r with
        | nil => simp at h1; exact absurd (h1 ▸ h2) h
        | cons d r =>
          obtain ⟨rfl, h1'⟩ : c = d ∧ w = r ++ s := by simpa using h1
          exact ⟨(r, s), ih.2 ⟨h1', h2, fun t ht he => h3 t (ht.trans (List.suffix_cons ..)) he⟩, rfl⟩

theorem cut_none {ends : List (List Char)} {w : List Char} : cut ends w = none ↔ ∀ t, t <:+ w → t ∉ ends := by
  induction w with
  | nil =>
    unfold cut
    split
    · rename_i h
      simp only [reduceCtorEq, false_iff]
      exact fun h' => h' [] List.suffix_rfl h
    · rename_i h
      simp only [true_iff]
      intro t ht
      rw [List.suffix_nil.1 ht]; exact h
  | cons c w ih =>
    unfold cut
    split
    · rename_i h
      simp only [reduceCtorEq, false_iff]
      exact fun h' => h' _ List.suffix_rfl h
    · rename_i h
      rw [Option.map_eq_none_iff, ih]
      constructor
      · intro h1 t ht
        rcases List.suffix_cons_iff.1 ht with rfl | ht
        · exact h
        · exact h1 t ht
      · intro h1 t ht
        exact h1 t (ht.trans (List.suffix_cons ..))

theorem longestOf_none {t : List Among} (h : longestOf t = none) : t = [] := by
  cases t with
  | nil => rfl
  | cons a as =>
    unfold longestOf at h
    split at h
    · simp at h
    · split at h <;> simp at h

theorem longestOf_some {t : List Among} {a : Among} (h : longestOf t = some a) : a ∈ t ∧ ∀ b ∈ t, b.str.length ≤ a.str.length := by
  induction t generalizing a with
  | nil => simp [longestOf] at h
  | cons x as ih =>
    unfold longestOf at h
    split at h
    · rename_i h'
      rw [longestOf_none h']
      obtain rfl : x = a := by simpa using h
      simp
    · rename_i b h'
      have := ih h'
      split at h
      · rename_i hlt
        obtain rfl : b = a := by simpa using h
        refine ⟨by simp [this.1], ?_⟩
        intro y hy
        rcases List.mem_cons.1 hy with rfl | hy
        · omega
        · exact this.2 y hy
      · rename_i hlt
        obtain rfl : x = a := by simpa using h
        refine ⟨by simp, ?_⟩
        intro y hy
        rcases List.mem_cons.1 hy with rfl | hy
        · omega
        · have := this.2 y hy; omega

/-- `FindAmongB` at the end of the text cuts off the longest end. -/
theorem findAmongB_env (t : List Among) (h w : List Char) (b k : Nat) :
    (cut (t.map (·.str)) w = none ∧ (env h w w.length b k).findAmongB t = (0, env h w w.length b k)) ∨
    ∃ r, ∃ a ∈ t, w = r ++ a.str ∧ cut (t.map (·.str)) w = some (r, a.str) ∧
      (env h w w.length b k).findAmongB t = (a.b, env h w r.length b k) := by
  have hw : ((env h w w.length b k).current.take (env h w w.length b k).cursor).drop (env h w w.length b k).limitBackward = w := by
    simp only [env]
    rw [List.take_of_length_le (by simp), List.drop_left' rfl]
  unfold Env.findAmongB
  rw [hw]
  cases hl : longestOf (t.filter fun a => a.str.isSuffixOf w) with
  | none =>
    left
    refine ⟨cut_none.2 fun s hs he => ?_, rfl⟩
    obtain ⟨a, ha, rfl⟩ := List.mem_map.1 he
    have := longestOf_none hl
    have hm : a ∈ t.filter fun a => a.str.isSuffixOf w := by simp [ha, hs]
    rw [this] at hm
    simp at hm
  | some a =>
    right
    obtain ⟨h1, h2⟩ := longestOf_some hl
    obtain ⟨ha, hs⟩ : a ∈ t ∧ a.str <:+ w := by simpa using h1
    obtain ⟨r, hr⟩ := hs
    refine ⟨r, a, ha, hr.symm, cut_some.2 ⟨hr.symm, List.mem_map_of_mem ha, fun s hs he => ?_⟩, ?_⟩
    · obtain ⟨a', ha', rfl⟩ := List.mem_map.1 he
      exact h2 a' (by simp [ha', hs])
    · simp only [Env.goTo, env, Prod.mk.injEq, Env.mk.injEq, true_and, and_true]
      have := congrArg List.length hr
      simp at this
      omega

theorem isPrefixOf_drop {s r t : List Char} (hl : s.length ≤ r.length) :
    s.isPrefixOf ((r ++ t).drop (r.length - s.length)) = s.isSuffixOf r := by
  rw [Bool.eq_iff_iff, List.isPrefixOf_iff_prefix, List.isSuffixOf_iff_suffix]
  rw [List.drop_append_of_le_length (by omega)]
  constructor
  · intro h
    have hd : (r.drop (r.length - s.length)).length = s.length := by simp; omega
    have : s = r.drop (r.length - s.length) := by
      have h1 := List.prefix_append (r.drop (r.length - s.length)) t
      exact (List.prefix_of_prefix_length_le h h1 (by omega)).eq_of_length (by omega)
    rw [this]
    exact List.drop_suffix ..
  · rintro ⟨u, rfl⟩
    simp

/-- `EqSB` behind `r`. -/
theorem eqSB_env (s h r t : List Char) (b k : Nat) :
    (env h (r ++ t) r.length b k).eqSB s =
      if s.isSuffixOf r then (true, env h (r ++ t) (r.length - s.length) b k) else (false, env h (r ++ t) r.length b k) := by
  unfold Env.eqSB
  by_cases hlt : r.length < s.length
  · have : s.isSuffixOf r = false := by
      rw [Bool.eq_false_iff, Ne, List.isSuffixOf_iff_suffix]
      intro hs; have := hs.length_le; omega
    rw [this, if_pos (by simp [env]; omega)]
    rfl
  · rw [if_neg (by simp [env]; omega)]
    have : (env h (r ++ t) r.length b k).current.drop ((env h (r ++ t) r.length b k).cursor - s.length)
        = (r ++ t).drop (r.length - s.length) := by
      simp only [env]
      rw [List.drop_append, List.drop_of_length_le (by omega)]
      simp only [List.nil_append]
      congr 1
      omega
    rw [this, isPrefixOf_drop (by omega)]
    split
    · simp only [Env.goTo, env, Prod.mk.injEq, Env.mk.injEq, true_and, and_true]
      omega
    · rfl

/-- `SliceFrom` with the slice behind `r`, up to the end of the text. -/
theorem sliceFrom_env (h r s t : List Char) (n : Nat) :
    (env h (r ++ s) n (h.length + r.length) (h.length + (r ++ s).length)).sliceFrom t =
      env h (r ++ t) (if (r ++ s).length ≤ n then n + t.length - s.length else min n r.length)
        (h.length + r.length) (h.length + (r ++ s).length) := by
  unfold Env.sliceFrom Env.replace env
  simp only [Env.mk.injEq, and_true]
  refine ⟨?_, ?_, ?_⟩
  · rw [max_eq_right (by simp)]
    simp only [← List.length_append, List.drop_length, List.append_nil]
    rw [← List.append_assoc, List.take_left' (by simp)]
    simp
  · simp only [List.length_append]
    by_cases hc : r.length + s.length ≤ n
    · rw [if_pos hc, if_pos (by omega)]; omega
    · rw [if_neg hc, if_neg (by omega)]; split <;> omega
  · simp only [List.length_append]; omega

theorem sliceDel_env (h r s : List Char) (n : Nat) (hn : n ≤ (r ++ s).length) :
    (env h (r ++ s) n (h.length + r.length) (h.length + (r ++ s).length)).sliceDel =
      env h r (min n r.length) (h.length + r.length) (h.length + (r ++ s).length) := by
  unfold Env.sliceDel
  rw [sliceFrom_env]
  simp only [List.append_nil, List.length_nil, Nat.add_zero]
  congr 1
  simp only [List.length_append] at *
  split <;> omega

theorem isSuffixOf_singleton (c : Char) (r : List Char) : [c].isSuffixOf r = decide (r.getLast? = some c) := by
  rw [Bool.eq_iff_iff, List.isSuffixOf_iff_suffix, decide_eq_true_iff]
  constructor
  · rintro ⟨u, rfl⟩; simp
  · intro h
    obtain ⟨ys, rfl⟩ := List.getLast?_eq_some_iff.1 h
    exact ⟨ys, rfl⟩

theorem cut_congr {e1 e2 : List (List Char)} (h : ∀ s, s ∈ e1 ↔ s ∈ e2) (w : List Char) : cut e1 w = cut e2 w := by
  induction w with
  | nil => simp only [cut, h]
  | cons c w ih => simp only [cut, h, ih]

theorem env_setKet (h w : List Char) (n b k : Nat) : (env h w n b k).setKet = env h w n b (h.length + n) := rfl

theorem env_setBra (h w : List Char) (n b k : Nat) : (env h w n b k).setBra = env h w n (h.length + n) k := rfl

theorem env_goTo (h w : List Char) (n m b k : Nat) : (env h w n b k).goTo (h.length + m) = env h w m b k := rfl

/-- Going back to a distance from the limit of 0. -/
theorem env_goEnd (h w : List Char) (n b k d : Nat) (hd : d = 0) :
    (env h w n b k).goTo ((env h w n b k).limit - d) = env h w w.length b k := by
  subst hd; rfl

theorem env_dist (h w : List Char) (n b k : Nat) : (env h w n b k).limit - (env h w n b k).cursor = w.length - n := by
  simp only [env]; omega

/-- An environment in forward mode with the text `a ++ b`, the cursor between them. -/
def fenv (a b : List Char) (lb bra ket : Nat) : Env := ⟨a ++ b, a.length, a.length + b.length, lb, bra, ket⟩

theorem fenv_next (a : List Char) (c : Char) (b : List Char) (lb bra ket : Nat) :
    (fenv a (c :: b) lb bra ket).nextChar = fenv (a ++ [c]) b lb bra ket := by
  simp [fenv, Env.nextChar, Env.goTo]; omega

theorem grouping_fenv (want : Bool) (g : List Nat) (lo hi : Nat) (a b : List Char) (lb bra ket : Nat) :
    (fenv a b lb bra ket).grouping want g lo hi = match b with
      | [] => (false, fenv a b lb bra ket)
      | c :: b => if inBits g lo hi c == want then (true, fenv (a ++ [c]) b lb bra ket) else (false, fenv a (c :: b) lb bra ket) := by
  unfold Env.grouping
  cases b with
  | nil => simp [fenv]
  | cons c b =>
    rw [if_neg (by simp [fenv])]
    have : (fenv a (c :: b) lb bra ket).current[(fenv a (c :: b) lb bra ket).cursor]? = some c := by simp [fenv]
    rw [this]
    simp only [fenv_next]

/-- A loop `golab` over a grouping. -/
theorem goUntil_grouping (want : Bool) (g : List Nat) (lo hi : Nat) (p : Char → Bool) (hp : ∀ c, p c = (inBits g lo hi c == want))
    (a b : List Char) (lb bra ket : Nat) :
    goUntil (Env.grouping want g lo hi) (fenv a b lb bra ket) = match after p b with
      | none => (false, fenv (a ++ b) [] lb bra ket)
      | some (h, t) => (true, fenv (a ++ h) t lb bra ket) := by
  induction b generalizing a with
  | nil =>
    unfold goUntil
    rw [grouping_fenv]
    simp [after, fenv]
  | cons c b ih =>
    unfold goUntil
    rw [grouping_fenv]
    unfold after
    dsimp only
    rw [← hp]
    by_cases hc : p c = true
    · simp [hc]
    · simp only [hc, Bool.false_eq_true, if_false]
      rw [if_neg (by simp [fenv]), fenv_next, ih]
      cases after p b with
      | none => simp
      | some x => simp

theorem after_some {p : Char → Bool} {w h t : List Char} (e : after p w = some (h, t)) : w = h ++ t ∧ h ≠ [] := by
  induction w generalizing h with
  | nil => simp [after] at e
  | cons c w ih =>
    unfold after at e
    split at e
    · obtain ⟨rfl, rfl⟩ : [c] = h ∧ w = t := by simpa using e
      simp
    · rw [Option.map_eq_some_iff] at e
      obtain ⟨⟨h', t'⟩, h1, h2⟩ := e
      obtain ⟨rfl, rfl⟩ : c :: h' = h ∧ t' = t := by simpa using h2
      simp [(ih h1).1]

/-- `EqS` with one character. -/
theorem eqS_fenv (x : Char) (a b : List Char) (lb bra ket : Nat) :
    (fenv a b lb bra ket).eqS [x] = match b with
      | [] => (false, fenv a b lb bra ket)
      | c :: b => if c = x then (true, fenv (a ++ [c]) b lb bra ket) else (false, fenv a (c :: b) lb bra ket) := by
  unfold Env.eqS
  cases b with
  | nil => simp [fenv]
  | cons c b =>
    rw [if_neg (by simp [fenv])]
    have hd : (fenv a (c :: b) lb bra ket).current.drop (fenv a (c :: b) lb bra ket).cursor = c :: b := by simp [fenv]
    rw [hd]
    dsimp only
    by_cases hc : c = x
    · subst hc
      rw [if_pos (by simp), if_pos rfl]
      simp [fenv, Env.goTo]; omega
    · rw [if_neg hc, if_neg]
      simp; exact fun h => hc h.symm

end Verif.Snowball
