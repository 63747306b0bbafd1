import Verif.Model.EnglishStemmer
import Verif.Spec.EnglishStemming
import Verif.Proofs.RussianStemmer
/- The generated stemmer for English computes the published algorithm. -/
namespace Verif.En
open Snowball Stemming English
open Ru (EndsIn goEnd_of sameMem cut_of_max)

theorem charEq (c d : Char) : c = d ↔ c.toNat = d.toNat := ⟨fun h => by rw [h], fun h => Char.toNat_inj.1 h⟩

theorem vowel_bits (c : Char) : inBits Gv 97 121 c = isVowel c := by
  unfold isVowel inBits
  simp only [List.mem_cons, List.not_mem_nil, or_false, charEq]
  generalize c.toNat = n
  by_cases h : 97 ≤ n ∧ n ≤ 121
  · obtain ⟨h1, h2⟩ := h
    interval_cases n <;> decide
  · have h1 : (decide (97 ≤ n) && decide (n ≤ 121)) = false := by
      rw [Bool.eq_false_iff]; simpa using h
    rw [h1, Bool.false_and, eq_comm]
    simp only [decide_eq_false_iff_not]
    simp only [Char.reduceToNat]
    omega

theorem wxy_bits (c : Char) : inBits GvWXY 89 121 c = (isVowel c || decide (c ∈ ['w', 'x', 'Y'])) := by
  unfold isVowel inBits
  simp only [List.mem_cons, List.not_mem_nil, or_false, charEq]
  generalize c.toNat = n
  by_cases h : 89 ≤ n ∧ n ≤ 121
  · obtain ⟨h1, h2⟩ := h
    interval_cases n <;> decide
  · have h1 : (decide (89 ≤ n) && decide (n ≤ 121)) = false := by
      rw [Bool.eq_false_iff]; simpa using h
    rw [h1, Bool.false_and, eq_comm]
    simp only [Bool.or_eq_false_iff, decide_eq_false_iff_not]
    simp only [Char.reduceToNat]
    omega

theorem li_bits (c : Char) : inBits GvalidLI 99 116 c = decide (c ∈ ['c', 'd', 'e', 'g', 'h', 'k', 'm', 'n', 'r', 't']) := by
  unfold inBits
  simp only [List.mem_cons, List.not_mem_nil, or_false, charEq]
  generalize c.toNat = n
  by_cases h : 99 ≤ n ∧ n ≤ 116
  · obtain ⟨h1, h2⟩ := h
    interval_cases n <;> decide
  · have h1 : (decide (99 ≤ n) && decide (n ≤ 116)) = false := by
      rw [Bool.eq_false_iff]; simpa using h
    rw [h1, Bool.false_and, eq_comm]
    simp only [decide_eq_false_iff_not]
    simp only [Char.reduceToNat]
    omega

theorem groupingB_env (want : Bool) (g : List Nat) (lo hi : Nat) (h r t : List Char) (b k : Nat) :
    (env h (r ++ t) r.length b k).groupingB want g lo hi = match r.getLast? with
      | none => (false, env h (r ++ t) r.length b k)
      | some c => if inBits g lo hi c == want then (true, env h (r ++ t) (r.length - 1) b k) else (false, env h (r ++ t) r.length b k) := by
  unfold Env.groupingB
  rcases List.eq_nil_or_concat r with rfl | ⟨u, c, rfl⟩
  · simp [env]
  · rw [if_neg (by simp [env])]
    have : (env h (u ++ [c] ++ t) (u ++ [c]).length b k).current[(env h (u ++ [c] ++ t) (u ++ [c]).length b k).cursor - 1]? = some c := by
      simp only [env, List.length_append, List.length_singleton]
      rw [show h.length + (u.length + 1) - 1 = h.length + u.length by omega]
      rw [List.getElem?_append_right (by omega)]
      simp
    rw [List.concat_eq_append, this]
    simp only [List.getLast?_append, List.getLast?_singleton, Option.some_or]
    split
    · simp only [Env.prevChar, Env.goTo, env, Prod.mk.injEq, Env.mk.injEq, true_and, and_true]
      simp
    · rfl

theorem vowelB_env (h r t : List Char) (b k : Nat) : vowelB (env h (r ++ t) r.length b k) = match r.getLast? with
      | none => (false, env h (r ++ t) r.length b k)
      | some c => if isVowel c then (true, env h (r ++ t) (r.length - 1) b k) else (false, env h (r ++ t) r.length b k) := by
  unfold vowelB
  rw [groupingB_env]
  cases r.getLast? with
  | none => rfl
  | some c => simp [vowel_bits]

theorem nonVowelB_env (h r t : List Char) (b k : Nat) : nonVowelB (env h (r ++ t) r.length b k) = match r.getLast? with
      | none => (false, env h (r ++ t) r.length b k)
      | some c => if isVowel c then (false, env h (r ++ t) r.length b k) else (true, env h (r ++ t) (r.length - 1) b k) := by
  unfold nonVowelB
  rw [groupingB_env]
  cases r.getLast? with
  | none => rfl
  | some c => cases hc : isVowel c <;> simp [vowel_bits, hc]

theorem goUntilB_vowel (h r t : List Char) (b k : Nat) :
    ∃ n ≤ r.length, goUntilB vowelB (env h (r ++ t) r.length b k) = (r.any isVowel, env h (r ++ t) n b k) := by
  induction r using List.reverseRecOn generalizing t with
  | nil =>
    refine ⟨0, Nat.le_refl _, ?_⟩
    unfold goUntilB
    rw [vowelB_env]
    simp [env]
  | append_singleton u c ih =>
    unfold goUntilB
    rw [vowelB_env]
    simp only [List.getLast?_append, List.getLast?_singleton, Option.some_or]
    by_cases hc : isVowel c = true
    · refine ⟨(u ++ [c]).length - 1, by omega, ?_⟩
      simp [hc]
    · obtain ⟨n, hn, h1⟩ := ih (c :: t)
      refine ⟨n, by simp; omega, ?_⟩
      simp only [hc, if_false, Bool.false_eq_true]
      rw [if_neg (by simp [env])]
      have : (env h (u ++ [c] ++ t) (u ++ [c]).length b k).prevChar = env h (u ++ c :: t) u.length b k := by
        simp only [Env.prevChar, Env.goTo, env, Env.mk.injEq, and_true]
        simp
      rw [this, h1]
      simp [hc]

/-- One character back. -/
theorem env_back (h u : List Char) (c : Char) (t : List Char) (b k : Nat) :
    env h (u ++ [c] ++ t) ((u ++ [c]).length - 1) b k = env h (u ++ (c :: t)) u.length b k := by
  simp

theorem env_same (h r t : List Char) (b k : Nat) :
    (env h (r ++ t) r.length b k).goTo ((env h (r ++ t) r.length b k).limit -
      ((env h (r ++ t) r.length b k).limit - (env h (r ++ t) r.length b k).cursor)) = env h (r ++ t) r.length b k := by
  simp only [env, Env.goTo, Env.mk.injEq, true_and, and_true, List.length_append]; omega

theorem shortv_eq (r t : List Char) (b k : Nat) : shortv (env [] (r ++ t) r.length b k) = shortEnd r := by
  have hvn : ∀ u t, (match vowelB (env [] (u ++ t) u.length b k) with
      | (false, _) => false
      | (true, e) => (nonVowelB e).1) = match u.reverse with
        | v :: n :: _ => isVowel v && !isVowel n
        | _ => false := by
    intro u t
    rw [vowelB_env]
    rcases List.eq_nil_or_concat u with rfl | ⟨u, v, rfl⟩
    · rfl
    · simp only [List.concat_eq_append, List.getLast?_append, List.getLast?_singleton, Option.some_or, env_back,
        List.reverse_append, List.reverse_singleton, List.singleton_append]
      by_cases hv : isVowel v = true
      · simp only [hv, if_true]
        rw [nonVowelB_env]
        rcases List.eq_nil_or_concat u with rfl | ⟨u, n, rfl⟩
        · rfl
        · simp only [List.concat_eq_append, List.getLast?_append, List.getLast?_singleton, Option.some_or,
            List.reverse_append, List.reverse_singleton, List.singleton_append]
          cases isVowel n <;> simp [hv]
      · simp only [hv, if_false, Bool.false_eq_true]
        cases u.reverse <;> simp [hv]
  have hvl : ∀ u t, (match vowelB (env [] (u ++ t) u.length b k) with
      | (false, _) => false
      | (true, e) => if e.cursor > e.limitBackward then false else true) = match u with
        | [v] => isVowel v
        | _ => false := by
    intro u t
    rw [vowelB_env]
    rcases List.eq_nil_or_concat u with rfl | ⟨u, v, rfl⟩
    · rfl
    · simp only [List.concat_eq_append, List.getLast?_append, List.getLast?_singleton, Option.some_or, env_back]
      cases u with
      | nil => cases hv : isVowel v <;> simp [env, hv]
      | cons x u =>
        have : ∀ y, (match x :: u ++ [v] with
          | [v] => isVowel v
          | _ => y) = y := by
          intro y
          cases u <;> rfl
        rw [this]
        cases hv : isVowel v <;> simp [env]
  unfold shortv
  simp only [env_same]
  rw [nonVowelB_env, groupingB_env]
  rcases List.eq_nil_or_concat r with rfl | ⟨u, c, rfl⟩
  · rfl
  · simp only [List.concat_eq_append, List.getLast?_append, List.getLast?_singleton, Option.some_or, wxy_bits, env_back]
    by_cases hc : isVowel c = true
    · simp only [hc, Bool.true_or, if_true]
      unfold shortEnd
      rcases List.eq_nil_or_concat u with rfl | ⟨u, v, rfl⟩
      · simp
      · rcases List.eq_nil_or_concat u with rfl | ⟨u, n, rfl⟩
        · simp [hc]
        · simp [hc]
    · simp only [hc, Bool.false_or, if_false, Bool.false_eq_true]
      have hsplit : shortEnd (u ++ [c]) = ((!decide (c ∈ ['w', 'x', 'Y']) && match u.reverse with
          | v :: n :: _ => isVowel v && !isVowel n
          | _ => false) || match u with
          | [v] => isVowel v
          | _ => false) := by
        unfold shortEnd
        rcases List.eq_nil_or_concat u with rfl | ⟨u, v, rfl⟩
        · simp
        · rcases List.eq_nil_or_concat u with rfl | ⟨u, n, rfl⟩
          · simp [hc]
          · have : ∀ y, (match (u.concat n).concat v with
              | [v] => isVowel v
              | _ => y) = y := by
              intro y
              cases u with
              | nil => rfl
              | cons x u => cases u <;> rfl
            rw [this]
            simp [hc]
            cases decide (c = 'w' ∨ c = 'x' ∨ c = 'Y') <;> cases isVowel v <;> cases isVowel n <;> simp
      rw [hsplit, ← hvl u (c :: t), ← hvn u (c :: t)]
      by_cases hw : c ∈ ['w', 'x', 'Y']
      · generalize vowelB (env [] (u ++ c :: t) u.length b k) = p
        obtain ⟨f, e⟩ := p
        cases f <;> simp [hw]
      · simp only [hw, decide_false, beq_self_eq_true, if_true, Bool.not_false, Bool.true_and]
        generalize vowelB (env [] (u ++ c :: t) u.length b k) = p
        obtain ⟨f, e⟩ := p
        cases f
        · simp
        · simp

theorem sliceFrom_ends (h r s t : List Char) (n : Nat) (hn : n ≤ (r ++ s).length) :
    EndsIn h (r ++ t) ((env h (r ++ s) n (h.length + r.length) (h.length + (r ++ s).length)).sliceFrom t) := by
  rw [sliceFrom_env]
  refine ⟨_, _, _, ?_, rfl⟩
  simp only [List.length_append] at *
  split <;> omega

theorem sliceDel_ends (h r s : List Char) (n : Nat) (hn : n ≤ (r ++ s).length) :
    EndsIn h r ((env h (r ++ s) n (h.length + r.length) (h.length + (r ++ s).length)).sliceDel) := by
  rw [sliceDel_env _ _ _ _ hn]
  exact ⟨_, _, _, by omega, rfl⟩

theorem ends_self (h w : List Char) (n b k : Nat) (hn : n ≤ w.length) : EndsIn h w (env h w n b k) := ⟨_, _, _, hn, rfl⟩

theorem inRegion_env (p : Nat) (w : List Char) (n b k : Nat) : inRegion p (env [] w n b k) = decide (p ≤ n) := by
  simp [inRegion, env]

theorem step1aQuote_eq (w : List Char) (b k : Nat) : ∃ b' k', step1aQuote (env [] w w.length b k) =
    env [] ((remove (words ["'", "'s", "'s'"]) w).getD w) ((remove (words ["'", "'s", "'s'"]) w).getD w).length b' k' := by
  unfold step1aQuote remove
  dsimp only
  rw [env_setKet, ← cut_congr (sameMem (l1 := A1.map (·.str)) (by decide))]
  rcases findAmongB_env A1 [] w b (([] : List Char).length + w.length) with ⟨h1, h2⟩ | ⟨r, a, ha, hw, h1, h2⟩
  · rw [h1, h2]
    simp only [if_true]
    rw [env_goEnd _ _ _ _ _ _ (by rw [env_dist]; omega)]
    exact ⟨_, _, rfl⟩
  · rw [h1, h2]
    have hb : ∀ a ∈ A1, a.b ≠ 0 := by decide
    simp only [hb a ha, if_false, env_setBra, Option.map_some, Option.getD_some]
    rw [hw, sliceDel_env _ _ _ _ (by simp), Nat.min_self]
    exact ⟨_, _, rfl⟩

/-- A step: cut off the longest ending of a table, then a `switch` on what was found. -/
theorem byTable {t : List Among} {ends : List (List Char)} (hm : ∀ s, s ∈ t.map (·.str) ↔ s ∈ ends) (hb : ∀ a ∈ t, a.b ≠ 0)
    (sw : Int → Env → Env) (f : List Char → List Char → List Char)
    (h : ∀ a ∈ t, ∀ r, EndsIn [] (f r a.str) (sw a.b (env [] (r ++ a.str) r.length (([] : List Char).length + r.length)
      (([] : List Char).length + (r ++ a.str).length)))) (w : List Char) (b k : Nat) :
    EndsIn [] (match cut ends w with
      | none => w
      | some (r, s) => f r s) (match (env [] w w.length b k).setKet.findAmongB t with
      | (among, e) => if among = 0 then e else sw among e.setBra) := by
  rw [env_setKet, ← cut_congr hm]
  rcases findAmongB_env t [] w b (([] : List Char).length + w.length) with ⟨h1, h2⟩ | ⟨r, a, ha, hw, h1, h2⟩
  · rw [h1, h2]
    exact ends_self _ _ _ _ _ (Nat.le_refl _)
  · rw [h1, h2]
    dsimp only
    rw [if_neg (hb a ha), env_setBra, hw]
    exact h a ha r

theorem switch1a_eq (a : Among) (ha : a ∈ A2) (r : List Char) : EndsIn []
    (if a.str = "sses".toList then r ++ "ss".toList
    else if a.str = "ied".toList ∨ a.str = "ies".toList then (if 2 ≤ r.length then r ++ "i".toList else r ++ "ie".toList)
    else if a.str = "s".toList then (if r.dropLast.any isVowel then r else r ++ a.str)
    else r ++ a.str)
    (switch1a a.b (env [] (r ++ a.str) r.length (([] : List Char).length + r.length) (([] : List Char).length + (r ++ a.str).length))) := by
  have hb : ∀ a ∈ A2, (a.b = 1 ∧ a.str = "sses".toList) ∨ (a.b = 2 ∧ (a.str = "ied".toList ∨ a.str = "ies".toList)) ∨
      (a.b = 3 ∧ a.str = "s".toList) ∨ (a.b = -1 ∧ (a.str = "ss".toList ∨ a.str = "us".toList)) := by decide
  unfold switch1a
  rcases hb a ha with ⟨h3, h4⟩ | ⟨h3, h4⟩ | ⟨h3, h4⟩ | ⟨h3, h4⟩
  · rw [h3, h4, if_pos (rfl : "sses".toList = "sses".toList), if_pos (rfl : (1 : Int) = 1)]
    exact sliceFrom_ends [] r _ _ _ (by simp)
  · have h5 : ¬ a.str = "sses".toList := by rcases h4 with h4 | h4 <;> rw [h4] <;> decide
    rw [h3, if_neg h5, if_pos h4, if_neg (show ¬ (2 : Int) = 1 by decide), if_pos (rfl : (2 : Int) = 2)]
    by_cases hl : 2 ≤ r.length
    · rw [if_pos hl, if_neg (by simp [env]; omega)]
      have : (env [] (r ++ a.str) r.length (([] : List Char).length + r.length) (([] : List Char).length + (r ++ a.str).length)).goTo
          ((env [] (r ++ a.str) r.length (([] : List Char).length + r.length) (([] : List Char).length + (r ++ a.str).length)).cursor - 2)
          = env [] (r ++ a.str) (r.length - 2) (([] : List Char).length + r.length) (([] : List Char).length + (r ++ a.str).length) := by
        simp [env, Env.goTo]
      rw [this]
      exact sliceFrom_ends [] r _ _ _ (by simp; omega)
    · rw [if_neg hl, if_pos (by simp [env]; omega)]
      exact sliceFrom_ends [] r _ _ _ (by simp)
  · rw [h3, h4, if_neg (show ¬ "s".toList = "sses".toList by decide), if_neg (show ¬ ("s".toList = "ied".toList ∨ "s".toList = "ies".toList) by decide),
      if_pos (rfl : "s".toList = "s".toList), if_neg (show ¬ (3 : Int) = 1 by decide), if_neg (show ¬ (3 : Int) = 2 by decide), if_pos (rfl : (3 : Int) = 3)]
    rcases List.eq_nil_or_concat r with rfl | ⟨u, c, rfl⟩
    · rw [if_neg (show ¬ (([] : List Char).dropLast.any isVowel = true) by simp), if_pos (by simp [env])]
      exact ends_self _ _ _ _ _ (by simp)
    · simp only [List.concat_eq_append, List.dropLast_concat]
      have hc : ¬ (env [] (u ++ [c] ++ "s".toList) (u ++ [c]).length (([] : List Char).length + (u ++ [c]).length)
          (([] : List Char).length + (u ++ [c] ++ "s".toList).length)).cursor ≤ (env [] (u ++ [c] ++ "s".toList) (u ++ [c]).length
          (([] : List Char).length + (u ++ [c]).length) (([] : List Char).length + (u ++ [c] ++ "s".toList).length)).limitBackward := by
        simp [env]
      rw [if_neg hc]
      have : ∀ B K, (env [] (u ++ [c] ++ "s".toList) (u ++ [c]).length B K).prevChar = env [] (u ++ (c :: "s".toList)) u.length B K := by
        intro B K
        simp only [Env.prevChar, Env.goTo, env, Env.mk.injEq, and_true]
        simp
      rw [this]
      obtain ⟨n, hn, h6⟩ := goUntilB_vowel [] u (c :: "s".toList) (([] : List Char).length + (u ++ [c]).length)
        (([] : List Char).length + (u ++ [c] ++ "s".toList).length)
      rw [h6]
      have e1 : u ++ c :: "s".toList = u ++ [c] ++ "s".toList := by simp
      rw [e1]
      cases u.any isVowel with
      | false => exact ends_self _ _ _ _ _ (by simp; omega)
      | true => exact sliceDel_ends [] (u ++ [c]) _ _ (by simp; omega)
  · have h5 : ¬ a.str = "sses".toList ∧ ¬ (a.str = "ied".toList ∨ a.str = "ies".toList) ∧ ¬ a.str = "s".toList := by
      rcases h4 with h4 | h4 <;> rw [h4] <;> decide
    rw [h3, if_neg h5.1, if_neg h5.2.1, if_neg h5.2.2, if_neg (show ¬ (-1 : Int) = 1 by decide), if_neg (show ¬ (-1 : Int) = 2 by decide),
      if_neg (show ¬ (-1 : Int) = 3 by decide)]
    exact ends_self _ _ _ _ _ (by simp)

theorem step1a_eq (w : List Char) (b k : Nat) : EndsIn [] (English.step1a w) (step1a (env [] w w.length b k)) := by
  unfold step1a English.step1a
  obtain ⟨b1, k1, h0⟩ := step1aQuote_eq w b k
  rw [h0]
  generalize (remove (words ["'", "'s", "'s'"]) w).getD w = w
  dsimp only
  have := byTable (t := A2) (ends := words ["sses", "ied", "ies", "s", "us", "ss"]) (sameMem (by decide)) (by decide) switch1a
    (fun r s => if s = "sses".toList then r ++ "ss".toList
      else if s = "ied".toList ∨ s = "ies".toList then (if 2 ≤ r.length then r ++ "i".toList else r ++ "ie".toList)
      else if s = "s".toList then (if r.dropLast.any isVowel then r else r ++ s)
      else r ++ s) switch1a_eq w b1 k1
  convert this using 2
  split
  · rename_i h; rw [h]
  · rename_i r s h
    rw [h]
    rw [(cut_some.1 h).1]

theorem insertE_ends (w : List Char) (b k : Nat) : EndsIn [] (w ++ ['e']) (insertE (env [] w w.length b k)) := by
  refine ⟨w.length, b, k, by simp, ?_⟩
  simp [insertE, env, Env.replace, Env.goTo]

theorem suffix_any {l : List (List Char)} {w : List Char} : (l.any fun x => x.isSuffixOf w) = true ↔ ∃ x ∈ l, x <:+ w := by
  simp

theorem step1bEnd_eq (p1 : Nat) (w : List Char) (b k : Nat) :
    EndsIn [] (English.step1bEnd p1 w) (step1bEnd p1 (env [] w w.length b k)) := by
  unfold step1bEnd English.step1bEnd
  dsimp only
  have hA : ∀ l : List String, (l.any fun x => x.toList.isSuffixOf w) = true ↔ ∃ x ∈ words l, x <:+ w := by
    intro l; simp [words]
  rcases findAmongB_env A3 [] w b k with ⟨h1, _⟩ | ⟨r, a, ha, hw, h1, h2⟩
  · exact absurd (by decide : [] ∈ A3.map (·.str)) (cut_none.1 h1 [] List.nil_suffix)
  · rw [h2]
    obtain ⟨-, -, h4⟩ := cut_some.1 h1
    have hb : ∀ a ∈ A3, (a.b = 1 ∧ a.str ∈ words ["at", "bl", "iz"]) ∨
      (a.b = 2 ∧ a.str ∈ words ["bb", "dd", "ff", "gg", "mm", "nn", "pp", "rr", "tt"]) ∨ (a.b = 3 ∧ a.str = []) := by decide
    have hlen : ∀ s ∈ words ["at", "bl", "iz"] ++ words ["bb", "dd", "ff", "gg", "mm", "nn", "pp", "rr", "tt"], s.length = 2 ∧ s ∈ A3.map (·.str) := by
      decide
    have hne : a.b ≠ 0 := by rcases hb a ha with h | h | h <;> rw [h.1] <;> decide
    dsimp only
    rw [if_neg hne, env_goEnd _ _ _ _ _ _ (by rw [env_dist]; omega)]
    -- two endings of two letters of the same word are the same
    have huniq : ∀ s, s <:+ w → s.length = 2 → a.str.length = 2 → s = a.str := by
      intro s hs hl hl'
      exact (List.suffix_of_suffix_length_le hs ⟨r, hw.symm⟩ (by omega)).eq_of_length (by omega)
    rcases hb a ha with ⟨h3, h5⟩ | ⟨h3, h5⟩ | ⟨h3, h5⟩
    · rw [h3, if_pos (rfl : (1 : Int) = 1), if_pos ((hA _).2 ⟨a.str, h5, r, hw.symm⟩)]
      exact insertE_ends _ _ _
    · have hn1 : ¬ (["at", "bl", "iz"].any fun x => x.toList.isSuffixOf w) = true := by
        rw [hA]
        rintro ⟨x, hx, hxw⟩
        have h6 := (hlen x (List.mem_append_left _ hx)).1
        have h7 := (hlen a.str (List.mem_append_right _ h5)).1
        have := huniq x hxw h6 h7
        subst this
        revert hx h5
        have : ∀ s ∈ words ["at", "bl", "iz"], s ∉ words ["bb", "dd", "ff", "gg", "mm", "nn", "pp", "rr", "tt"] := by decide
        exact fun h h' => this _ h' h
      rw [h3, if_neg (show ¬ (2 : Int) = 1 by decide), if_pos (rfl : (2 : Int) = 2), if_neg hn1, if_pos ((hA _).2 ⟨a.str, h5, r, hw.symm⟩), if_neg]
      · have hw' : w ≠ [] := by
          rw [hw]; intro h
          have := hlen a.str (List.mem_append_right _ h5)
          simp [(List.append_eq_nil_iff.1 h).2] at this
        obtain ⟨u, c, rfl⟩ := (List.eq_nil_or_concat w).resolve_left hw'
        simp only [List.concat_eq_append, List.dropLast_concat]
        have := sliceDel_ends [] u [c] u.length (by simp)
        convert this using 2
        simp [env, Env.setKet, Env.prevChar, Env.setBra, Env.goTo]
      · have : 0 < w.length := by
          have := hlen a.str (List.mem_append_right _ h5)
          rw [hw, List.length_append]; omega
        simp only [env, Env.setKet]
        simp
        intro h; subst h; simp at this
    · have hno : ∀ s ∈ words ["at", "bl", "iz"] ++ words ["bb", "dd", "ff", "gg", "mm", "nn", "pp", "rr", "tt"], ¬ s <:+ w := by
        intro s hs hsw
        have := hlen s hs
        have := h4 s hsw this.2
        rw [h5] at this
        simp at this; simp [this] at *
      have hn1 : ¬ (["at", "bl", "iz"].any fun x => x.toList.isSuffixOf w) = true := by
        rw [hA]; rintro ⟨x, hx, hxw⟩; exact hno x (List.mem_append_left _ hx) hxw
      have hn2 : ¬ (["bb", "dd", "ff", "gg", "mm", "nn", "pp", "rr", "tt"].any fun x => x.toList.isSuffixOf w) = true := by
        rw [hA]; rintro ⟨x, hx, hxw⟩; exact hno x (List.mem_append_right _ hx) hxw
      rw [h3, if_neg (show ¬ (3 : Int) = 1 by decide), if_neg (show ¬ (3 : Int) = 2 by decide), if_pos (rfl : (3 : Int) = 3), if_neg hn1, if_neg hn2]
      · have hc : (env [] w w.length b k).cursor = w.length := by simp [env]
        rw [hc]
        have hs := shortv_eq w [] b k
        rw [List.append_nil] at hs
        by_cases hp : p1 = w.length
        · rw [if_neg (show ¬ w.length ≠ p1 by omega), hs]
          by_cases hv : shortEnd w = true
          · rw [if_pos hv, if_pos ⟨hp, hv⟩]; exact insertE_ends _ _ _
          · rw [if_neg hv, if_neg (fun h : p1 = w.length ∧ shortEnd w = true => hv h.2)]; exact ends_self _ _ _ _ _ (Nat.le_refl _)
        · rw [if_pos (Ne.symm hp), if_neg (fun h : p1 = w.length ∧ shortEnd w = true => hp h.1)]; exact ends_self _ _ _ _ _ (Nat.le_refl _)

theorem switch1b_eq (p1 : Nat) (a : Among) (ha : a ∈ A4) (r : List Char) : EndsIn []
    (if a.str = "eed".toList ∨ a.str = "eedly".toList then (if p1 ≤ r.length then r ++ "ee".toList else r ++ a.str)
    else if r.any isVowel then English.step1bEnd p1 r else r ++ a.str)
    (switch1b p1 a.b (env [] (r ++ a.str) r.length (([] : List Char).length + r.length) (([] : List Char).length + (r ++ a.str).length))) := by
  have hb : ∀ a ∈ A4, (a.b = 1 ∧ (a.str = "eed".toList ∨ a.str = "eedly".toList)) ∨
      (a.b = 2 ∧ ¬ (a.str = "eed".toList ∨ a.str = "eedly".toList)) := by decide
  unfold switch1b
  rcases hb a ha with ⟨h3, h4⟩ | ⟨h3, h4⟩
  · rw [h3, if_pos (rfl : (1 : Int) = 1), if_pos h4, inRegion_env]
    by_cases hp : p1 ≤ r.length
    · rw [if_pos hp, if_pos (by simpa using hp)]
      exact sliceFrom_ends [] r _ _ _ (by simp)
    · rw [if_neg hp, if_neg (by simpa using hp)]
      exact ends_self _ _ _ _ _ (by simp)
  · rw [h3, if_neg (show ¬ (2 : Int) = 1 by decide), if_pos (rfl : (2 : Int) = 2), if_neg h4]
    obtain ⟨n, hn, h6⟩ := goUntilB_vowel [] r a.str (([] : List Char).length + r.length) (([] : List Char).length + (r ++ a.str).length)
    rw [h6]
    cases r.any isVowel with
    | false => exact ends_self _ _ _ _ _ (by simp; omega)
    | true =>
      dsimp only
      have : (env [] (r ++ a.str) n (([] : List Char).length + r.length) (([] : List Char).length + (r ++ a.str).length)).goTo
          ((env [] (r ++ a.str) n (([] : List Char).length + r.length) (([] : List Char).length + (r ++ a.str).length)).limit -
          ((env [] (r ++ a.str) r.length (([] : List Char).length + r.length) (([] : List Char).length + (r ++ a.str).length)).limit -
          (env [] (r ++ a.str) r.length (([] : List Char).length + r.length) (([] : List Char).length + (r ++ a.str).length)).cursor)) =
          env [] (r ++ a.str) r.length (([] : List Char).length + r.length) (([] : List Char).length + (r ++ a.str).length) := by
        simp [env, Env.goTo]
      rw [this, sliceDel_env _ _ _ _ (by simp), Nat.min_self, if_pos rfl]
      exact step1bEnd_eq p1 r _ _

theorem step1b_eq (p1 : Nat) (w : List Char) (b k : Nat) : EndsIn [] (English.step1b p1 w) (step1b p1 (env [] w w.length b k)) := by
  unfold step1b English.step1b
  have := byTable (t := A4) (ends := words ["eed", "eedly", "ed", "edly", "ing", "ingly"]) (sameMem (by decide)) (by decide) (switch1b p1)
    (fun r s => if s = "eed".toList ∨ s = "eedly".toList then (if p1 ≤ r.length then r ++ "ee".toList else r ++ s)
      else if r.any isVowel then English.step1bEnd p1 r else r ++ s) (switch1b_eq p1) w b k
  convert this using 2
  split
  · rename_i h; rw [h]
  · rename_i r s h
    rw [h]
    rw [(cut_some.1 h).1]

theorem length_nil_add (n : Nat) : ([] : List Char).length + n = n := by simp

theorem step1c_eq (w : List Char) (b k : Nat) : EndsIn [] (English.step1c w) (step1c (env [] w w.length b k)) := by
  unfold step1c
  rw [env_setKet]
  rcases List.eq_nil_or_concat w with rfl | ⟨u, c, rfl⟩
  · have : yB (env [] [] ([] : List Char).length b (([] : List Char).length + ([] : List Char).length)) =
        (false, env [] [] ([] : List Char).length b (([] : List Char).length + ([] : List Char).length)) := rfl
    rw [this]
    exact ends_self _ _ _ _ _ (Nat.le_refl _)
  · rw [List.concat_eq_append]
    have hy : ∀ B K, yB (env [] (u ++ [c]) (u ++ [c]).length B K) = if c = 'y' ∨ c = 'Y' then (true, env [] (u ++ [c]) u.length B K)
        else (false, env [] (u ++ [c]) (u ++ [c]).length B K) := by
      intro B K
      have h1 := fun x => eqSB_env [x] [] (u ++ [c]) [] B K
      simp only [List.append_nil, isSuffixOf_singleton] at h1
      unfold yB
      dsimp only
      rw [h1]
      by_cases hc : c = 'y'
      · subst hc; simp
      · rw [if_neg (by simpa using hc)]
        dsimp only
        have h2 := env_same [] (u ++ [c]) [] B K
        rw [List.append_nil] at h2
        rw [h2, h1]
        by_cases hc' : c = 'Y'
        · subst hc'; simp
        · rw [if_neg (by simpa using hc'), if_neg (by simp [hc, hc'])]
    rw [hy]
    by_cases hc : c = 'y' ∨ c = 'Y'
    · rw [if_pos hc]
      dsimp only
      rw [env_setBra, nonVowelB_env]
      unfold English.step1c
      rcases List.eq_nil_or_concat u with rfl | ⟨u, n, rfl⟩
      · exact ends_self _ _ _ _ _ (by simp)
      · simp only [List.concat_eq_append, List.getLast?_append, List.getLast?_singleton, Option.some_or, List.reverse_append,
          List.reverse_singleton, List.singleton_append]
        by_cases hn : isVowel n = true
        · have hif : ¬ ((c = 'y' ∨ c = 'Y') ∧ (!isVowel n) = true) := by simp [hn]
          rw [if_pos hn]
          rcases List.eq_nil_or_concat u with rfl | ⟨u, m, rfl⟩
          · exact ends_self _ _ _ _ _ (by simp)
          · simp only [List.concat_eq_append, List.reverse_append, List.reverse_singleton, List.singleton_append]
            rw [if_neg hif]
            exact ends_self _ _ _ _ _ (by simp)
        · have hif : (c = 'y' ∨ c = 'Y') ∧ (!isVowel n) = true := ⟨hc, by simpa using hn⟩
          rw [if_neg hn]
          rcases List.eq_nil_or_concat u with rfl | ⟨u, m, rfl⟩
          · exact ⟨0, 1, 2, by simp, rfl⟩
          · simp only [List.concat_eq_append, List.reverse_append, List.reverse_singleton, List.singleton_append]
            rw [if_pos hif, if_pos (by simp [env])]
            rw [List.dropLast_concat]
            exact sliceFrom_ends [] (u ++ [m] ++ [n]) [c] ['i'] _ (by simp)
    · rw [if_neg hc]
      have hspec : English.step1c (u ++ [c]) = u ++ [c] := by
        unfold English.step1c
        split
        · rename_i c' n x y h
          rw [if_neg]
          rintro ⟨h1, -⟩
          simp at h
          exact hc (h.1 ▸ h1)
        · rfl
      rw [hspec]
      exact ends_self _ _ _ _ _ (by simp)

theorem switch2_eq (p1 : Nat) (a : Among) (ha : a ∈ A5) (r : List Char) : EndsIn []
    (if p1 ≤ r.length ∧ (a.str = "ogi".toList → r.getLast? = some 'l') ∧
        (a.str = "li".toList → ∃ c ∈ ['c', 'd', 'e', 'g', 'h', 'k', 'm', 'n', 'r', 't'], r.getLast? = some c) then
      r ++ (endings2.lookup a.str).getD [] else r ++ a.str)
    (switch2 p1 a.b (env [] (r ++ a.str) r.length (([] : List Char).length + r.length) (([] : List Char).length + (r ++ a.str).length))) := by
  have hsw : ∀ e : Env, inRegion p1 e = true → (a.b = 13 ∧ a.str = "ogi".toList) ∨ (a.b = 15 ∧ a.str = "li".toList) ∨
      (a.str ≠ "ogi".toList ∧ a.str ≠ "li".toList ∧ switch2 p1 a.b e = e.sliceFrom ((endings2.lookup a.str).getD [])) := by
    intro e he
    unfold switch2
    rw [if_pos he]
    simp only [A5, List.mem_cons, List.not_mem_nil, or_false] at ha
    rcases ha with rfl | rfl | rfl | rfl | rfl | rfl | rfl | rfl | rfl | rfl | rfl | rfl | rfl | rfl | rfl | rfl | rfl | rfl | rfl | rfl |
      rfl | rfl | rfl | rfl
    all_goals first
      | exact Or.inl ⟨rfl, rfl⟩
      | exact Or.inr (Or.inl ⟨rfl, rfl⟩)
      | exact Or.inr (Or.inr ⟨by decide, by decide, rfl⟩)
  by_cases hp : p1 ≤ r.length
  · have hin : inRegion p1 (env [] (r ++ a.str) r.length (([] : List Char).length + r.length) (([] : List Char).length + (r ++ a.str).length)) = true := by
      rw [inRegion_env]; simpa using hp
    rcases hsw _ hin with ⟨h3, h4⟩ | ⟨h3, h4⟩ | ⟨h3, h4, h5⟩
    · unfold switch2
      rw [if_pos hin, h3]
      simp only [show ¬ (13 : Int) = 1 by decide, show ¬ (13 : Int) = 2 by decide, show ¬ (13 : Int) = 3 by decide, show ¬ (13 : Int) = 4 by decide,
        show ¬ (13 : Int) = 5 by decide, show ¬ (13 : Int) = 6 by decide, show ¬ (13 : Int) = 7 by decide, show ¬ (13 : Int) = 8 by decide,
        show ¬ (13 : Int) = 9 by decide, show ¬ (13 : Int) = 10 by decide, show ¬ (13 : Int) = 11 by decide, show ¬ (13 : Int) = 12 by decide, if_false, if_true]
      rw [h4, eqSB_env, isSuffixOf_singleton]
      by_cases hl : r.getLast? = some 'l'
      · rw [if_pos (⟨hp, fun _ => hl, fun h => absurd h (by decide)⟩ : p1 ≤ r.length ∧ ("ogi".toList = "ogi".toList → r.getLast? = some 'l') ∧
          ("ogi".toList = "li".toList → ∃ c ∈ ['c', 'd', 'e', 'g', 'h', 'k', 'm', 'n', 'r', 't'], r.getLast? = some c))]
        simp only [hl, decide_true, if_true]
        exact sliceFrom_ends [] r _ _ _ (by simp; omega)
      · rw [if_neg (fun h : p1 ≤ r.length ∧ ("ogi".toList = "ogi".toList → r.getLast? = some 'l') ∧
          ("ogi".toList = "li".toList → ∃ c ∈ ['c', 'd', 'e', 'g', 'h', 'k', 'm', 'n', 'r', 't'], r.getLast? = some c) => hl (h.2.1 rfl))]
        simp only [hl, decide_false, if_false, Bool.false_eq_true]
        exact ends_self _ _ _ _ _ (by simp)
    · unfold switch2
      rw [if_pos hin, h3]
      simp only [show ¬ (15 : Int) = 1 by decide, show ¬ (15 : Int) = 2 by decide, show ¬ (15 : Int) = 3 by decide, show ¬ (15 : Int) = 4 by decide,
        show ¬ (15 : Int) = 5 by decide, show ¬ (15 : Int) = 6 by decide, show ¬ (15 : Int) = 7 by decide, show ¬ (15 : Int) = 8 by decide,
        show ¬ (15 : Int) = 9 by decide, show ¬ (15 : Int) = 10 by decide, show ¬ (15 : Int) = 11 by decide, show ¬ (15 : Int) = 12 by decide,
        show ¬ (15 : Int) = 13 by decide, show ¬ (15 : Int) = 14 by decide, if_false, if_true]
      rw [h4, groupingB_env]
      rcases List.eq_nil_or_concat r with rfl | ⟨u, c, rfl⟩
      · rw [if_neg (by simp)]
        exact ends_self _ _ _ _ _ (by simp)
      · simp only [List.concat_eq_append, List.getLast?_append, List.getLast?_singleton, Option.some_or, li_bits]
        by_cases hl : c ∈ ['c', 'd', 'e', 'g', 'h', 'k', 'm', 'n', 'r', 't']
        · rw [if_pos ⟨by simpa using hp, fun h => absurd h (by decide), fun _ => ⟨c, hl, rfl⟩⟩]
          simp only [hl, decide_true, beq_self_eq_true, if_true]
          have := sliceDel_ends [] (u ++ [c]) "li".toList ((u ++ [c]).length - 1) (by simp)
          convert this using 1
          simp
          decide
        · rw [if_neg]
          · simp only [hl, decide_false]
            exact ends_self _ _ _ _ _ (by simp)
          · rintro ⟨-, -, h⟩
            obtain ⟨c', h1, h2⟩ := h trivial
            simp at h2
            exact hl (h2 ▸ h1)
    · rw [h5, if_pos ⟨hp, fun h => absurd h h3, fun h => absurd h h4⟩]
      exact sliceFrom_ends [] r _ _ _ (by simp)
  · unfold switch2
    rw [inRegion_env, if_neg (fun h => hp h.1), if_neg (by simpa using hp)]
    exact ends_self _ _ _ _ _ (by simp)

theorem step2_eq (p1 : Nat) (w : List Char) (b k : Nat) : EndsIn [] (English.step2 p1 w) (step2 p1 (env [] w w.length b k)) := by
  unfold step2 English.step2
  have := byTable (t := A5) (ends := endings2.map (·.1)) (sameMem (by decide)) (by decide) (switch2 p1)
    (fun r s => if p1 ≤ r.length ∧ (s = "ogi".toList → r.getLast? = some 'l') ∧
        (s = "li".toList → ∃ c ∈ ['c', 'd', 'e', 'g', 'h', 'k', 'm', 'n', 'r', 't'], r.getLast? = some c) then
      r ++ (endings2.lookup s).getD [] else r ++ s) (switch2_eq p1) w b k
  convert this using 2
  split
  · rename_i h; rw [h]
  · rename_i r s h
    rw [h]
    rw [(cut_some.1 h).1]

theorem switch3_eq (p1 p2 : Nat) (a : Among) (ha : a ∈ A6) (r : List Char) : EndsIn []
    (if p1 ≤ r.length ∧ (a.str = "ative".toList → p2 ≤ r.length) then r ++ (endings3.lookup a.str).getD [] else r ++ a.str)
    (switch3 p1 p2 a.b (env [] (r ++ a.str) r.length (([] : List Char).length + r.length) (([] : List Char).length + (r ++ a.str).length))) := by
  have hsw : ∀ e : Env, inRegion p1 e = true → (a.b = 6 ∧ a.str = "ative".toList) ∨
      (a.str ≠ "ative".toList ∧ switch3 p1 p2 a.b e = e.sliceFrom ((endings3.lookup a.str).getD [])) := by
    intro e he
    unfold switch3
    rw [if_pos he]
    simp only [A6, List.mem_cons, List.not_mem_nil, or_false] at ha
    rcases ha with rfl | rfl | rfl | rfl | rfl | rfl | rfl | rfl | rfl
    all_goals first
      | exact Or.inl ⟨rfl, rfl⟩
      | exact Or.inr ⟨by decide, rfl⟩
  by_cases hp : p1 ≤ r.length
  · have hin : inRegion p1 (env [] (r ++ a.str) r.length (([] : List Char).length + r.length) (([] : List Char).length + (r ++ a.str).length)) = true := by
      rw [inRegion_env]; simpa using hp
    rcases hsw _ hin with ⟨h3, h4⟩ | ⟨h3, h5⟩
    · unfold switch3
      rw [if_pos hin, h3]
      simp only [show ¬ (6 : Int) = 1 by decide, show ¬ (6 : Int) = 2 by decide, show ¬ (6 : Int) = 3 by decide, show ¬ (6 : Int) = 4 by decide,
        show ¬ (6 : Int) = 5 by decide, if_false, if_true]
      rw [h4, inRegion_env]
      by_cases hp2 : p2 ≤ r.length
      · rw [if_pos ⟨hp, fun _ => hp2⟩, if_pos (by simpa using hp2)]
        exact sliceFrom_ends [] r _ _ _ (by simp)
      · rw [if_neg (fun h => hp2 (h.2 rfl)), if_neg (by simpa using hp2)]
        exact ends_self _ _ _ _ _ (by simp)
    · rw [h5, if_pos ⟨hp, fun h => absurd h h3⟩]
      exact sliceFrom_ends [] r _ _ _ (by simp)
  · unfold switch3
    rw [inRegion_env, if_neg (fun h => hp h.1), if_neg (by simpa using hp)]
    exact ends_self _ _ _ _ _ (by simp)

theorem step3_eq (p1 p2 : Nat) (w : List Char) (b k : Nat) : EndsIn [] (English.step3 p1 p2 w) (step3 p1 p2 (env [] w w.length b k)) := by
  unfold step3 English.step3
  have := byTable (t := A6) (ends := endings3.map (·.1)) (sameMem (by decide)) (by decide) (switch3 p1 p2)
    (fun r s => if p1 ≤ r.length ∧ (s = "ative".toList → p2 ≤ r.length) then r ++ (endings3.lookup s).getD [] else r ++ s)
    (switch3_eq p1 p2) w b k
  convert this using 2
  split
  · rename_i h; rw [h]
  · rename_i r s h
    rw [h]
    rw [(cut_some.1 h).1]

theorem stB_env (r t : List Char) (b k : Nat) : stB (env [] (r ++ t) r.length b k) =
    if r.getLast? = some 's' ∨ r.getLast? = some 't' then (true, env [] (r ++ t) (r.length - 1) b k) else (false, env [] (r ++ t) r.length b k) := by
  unfold stB
  dsimp only
  rw [eqSB_env, isSuffixOf_singleton]
  by_cases hs : r.getLast? = some 's'
  · simp [hs]
  · simp only [hs, decide_false, if_false, Bool.false_eq_true, false_or]
    rw [env_same, eqSB_env, isSuffixOf_singleton]
    by_cases ht : r.getLast? = some 't' <;> simp [ht]

theorem switch4_eq (p2 : Nat) (a : Among) (ha : a ∈ A7) (r : List Char) : EndsIn []
    (if p2 ≤ r.length ∧ (a.str = "ion".toList → r.getLast? = some 's' ∨ r.getLast? = some 't') then r else r ++ a.str)
    (switch4 p2 a.b (env [] (r ++ a.str) r.length (([] : List Char).length + r.length) (([] : List Char).length + (r ++ a.str).length))) := by
  have hb : ∀ a ∈ A7, (a.b = 1 ∧ a.str ≠ "ion".toList) ∨ (a.b = 2 ∧ a.str = "ion".toList) := by decide
  unfold switch4
  rw [inRegion_env]
  by_cases hp : p2 ≤ r.length
  · rw [if_pos (by simpa using hp : decide (p2 ≤ r.length) = true)]
    rcases hb a ha with ⟨h3, h4⟩ | ⟨h3, h4⟩
    · rw [if_pos ⟨hp, fun h => absurd h h4⟩, h3, if_pos (rfl : (1 : Int) = 1)]
      exact sliceDel_ends [] r _ _ (by simp)
    · rw [h3, if_neg (show ¬ (2 : Int) = 1 by decide), if_pos (rfl : (2 : Int) = 2), stB_env]
      by_cases hst : r.getLast? = some 's' ∨ r.getLast? = some 't'
      · rw [if_pos hst, if_pos ⟨hp, fun _ => hst⟩]
        exact sliceDel_ends [] r _ _ (by simp; omega)
      · rw [if_neg hst, if_neg (fun h => hst (h.2 h4))]
        exact ends_self _ _ _ _ _ (by simp)
  · rw [if_neg (by simpa using hp : ¬ decide (p2 ≤ r.length) = true), if_neg (fun h => hp h.1)]
    exact ends_self _ _ _ _ _ (by simp)

theorem step4_eq (p2 : Nat) (w : List Char) (b k : Nat) : EndsIn [] (English.step4 p2 w) (step4 p2 (env [] w w.length b k)) := by
  unfold step4 English.step4
  have := byTable (t := A7) (ends := endings4) (sameMem (by decide)) (by decide) (switch4 p2)
    (fun r s => if p2 ≤ r.length ∧ (s = "ion".toList → r.getLast? = some 's' ∨ r.getLast? = some 't') then r else r ++ s)
    (switch4_eq p2) w b k
  convert this using 2
  split
  · rename_i h; rw [h]
  · rename_i r s h
    rw [h]
    rw [(cut_some.1 h).1]

theorem switch5_eq (p1 p2 : Nat) (a : Among) (ha : a ∈ A8) (r : List Char) : EndsIn []
    (if a.str = "e".toList then (if p2 ≤ r.length ∨ (p1 ≤ r.length ∧ shortEnd r = false) then r else r ++ a.str)
    else if p2 ≤ r.length ∧ r.getLast? = some 'l' then r
    else r ++ a.str)
    (switch5 p1 p2 a.b (env [] (r ++ a.str) r.length (([] : List Char).length + r.length) (([] : List Char).length + (r ++ a.str).length))) := by
  have hb : ∀ a ∈ A8, (a.b = 1 ∧ a.str = "e".toList) ∨ (a.b = 2 ∧ ¬ a.str = "e".toList) := by decide
  unfold switch5
  rw [inRegion_env, inRegion_env, shortv_eq, eqSB_env, isSuffixOf_singleton]
  rcases hb a ha with ⟨h3, h4⟩ | ⟨h3, h4⟩
  · rw [h3, if_pos (rfl : (1 : Int) = 1), if_pos h4]
    by_cases hp2 : p2 ≤ r.length
    · rw [if_pos (Or.inl hp2), if_pos (by simpa using hp2)]
      exact sliceDel_ends [] r _ _ (by simp)
    · by_cases hp1 : p1 ≤ r.length
      · cases hs : shortEnd r <;> simp only [hp1, hp2, decide_true, decide_false, if_true, if_false, Bool.false_eq_true, false_or, true_and, reduceCtorEq]
        · exact sliceDel_ends [] r _ _ (by simp)
        · exact ends_self _ _ _ _ _ (by simp)
      · simp only [hp1, hp2, decide_false, if_false, Bool.false_eq_true, false_or, false_and]
        exact ends_self _ _ _ _ _ (by simp)
  · rw [h3, if_neg (show ¬ (2 : Int) = 1 by decide), if_pos (rfl : (2 : Int) = 2), if_neg h4]
    by_cases hp2 : p2 ≤ r.length
    · by_cases hl : r.getLast? = some 'l'
      · simp only [hp2, hl, decide_true, if_true, and_self]
        exact sliceDel_ends [] r _ _ (by simp; omega)
      · simp only [hp2, hl, decide_true, decide_false, if_true, if_false, Bool.false_eq_true, true_and]
        exact ends_self _ _ _ _ _ (by simp)
    · simp only [hp2, decide_false, if_false, Bool.false_eq_true, false_and]
      exact ends_self _ _ _ _ _ (by simp)

theorem step5_eq (p1 p2 : Nat) (w : List Char) (b k : Nat) : EndsIn [] (English.step5 p1 p2 w) (step5 p1 p2 (env [] w w.length b k)) := by
  unfold step5 English.step5
  have := byTable (t := A8) (ends := words ["e", "l"]) (sameMem (by decide)) (by decide) (switch5 p1 p2)
    (fun r s => if s = "e".toList then (if p2 ≤ r.length ∨ (p1 ≤ r.length ∧ shortEnd r = false) then r else r ++ s)
      else if p2 ≤ r.length ∧ r.getLast? = some 'l' then r
      else r ++ s)
    (switch5_eq p1 p2) w b k
  convert this using 2
  split
  · rename_i h; rw [h]
  · rename_i r s h
    rw [h]
    rw [(cut_some.1 h).1]

theorem steps_eq (p1 p2 : Nat) (w : List Char) (b k : Nat) : EndsIn []
    (English.step5 p1 p2 (English.step4 p2 (English.step3 p1 p2 (English.step2 p1 (English.step1c (English.step1b p1 w))))))
    (steps p1 p2 (env [] w w.length b k)) := by
  unfold steps
  have hz : ∀ (w : List Char) (b k : Nat), (env [] w w.length b k).limit - (env [] w w.length b k).cursor = 0 := fun w b k => by
    rw [env_dist]; omega
  dsimp only
  obtain ⟨b1, k1, h1⟩ := goEnd_of (step1b_eq p1 w b k) _ (hz w b k)
  rw [h1]
  obtain ⟨b2, k2, h2⟩ := goEnd_of (step1c_eq (English.step1b p1 w) b1 k1) _ (hz _ b1 k1)
  rw [h2]
  obtain ⟨b3, k3, h3⟩ := goEnd_of (step2_eq p1 (English.step1c (English.step1b p1 w)) b2 k2) _ (hz _ b2 k2)
  rw [h3]
  obtain ⟨b4, k4, h4⟩ := goEnd_of (step3_eq p1 p2 (English.step2 p1 (English.step1c (English.step1b p1 w))) b3 k3) _ (hz _ b3 k3)
  rw [h4]
  obtain ⟨b5, k5, h5⟩ := goEnd_of (step4_eq p2 (English.step3 p1 p2 (English.step2 p1 (English.step1c (English.step1b p1 w)))) b4 k4) _ (hz _ b4 k4)
  rw [h5]
  obtain ⟨b6, k6, h6⟩ := goEnd_of (step5_eq p1 p2 (English.step4 p2 (English.step3 p1 p2 (English.step2 p1 (English.step1c (English.step1b p1 w))))) b5 k5) _ (hz _ b5 k5)
  rw [h6]
  exact ends_self _ _ _ _ _ (Nat.le_refl _)

theorem exception2_eq (w : List Char) (b k : Nat) : (exception2 (env [] w w.length b k)).1 = decide (w ∈ invariants) ∧
    EndsIn [] w (exception2 (env [] w w.length b k)).2 := by
  have hm : ∀ s, s ∈ A9.map (·.str) ↔ s ∈ invariants := sameMem (by decide)
  unfold exception2
  rw [env_setKet]
  rcases findAmongB_env A9 [] w b (([] : List Char).length + w.length) with ⟨h1, h2⟩ | ⟨r, a, ha, hw, h1, h2⟩
  · rw [h2]
    have : w ∉ invariants := fun h => cut_none.1 h1 w List.suffix_rfl ((hm w).2 h)
    simp only [if_true, this, decide_false, true_and]
    exact ends_self _ _ _ _ _ (Nat.le_refl _)
  · rw [h2]
    have hb : ∀ a ∈ A9, a.b ≠ 0 := by decide
    dsimp only
    rw [if_neg (hb a ha), env_setBra]
    obtain ⟨-, -, h3⟩ := cut_some.1 h1
    by_cases hr : r = []
    · subst hr
      have : w ∈ invariants := (hm w).1 (by rw [hw]; simpa using ⟨a, ha, rfl⟩)
      rw [if_neg (by simp [env])]
      exact ⟨by simp [this], ends_self _ _ _ _ _ (by simp)⟩
    · have : w ∉ invariants := fun h => by
        have := h3 w List.suffix_rfl ((hm w).2 h)
        have hl := congrArg List.length hw
        have := List.length_pos_iff.2 hr
        simp at hl; omega
      rw [if_pos (by simp [env]; exact List.length_pos_iff.2 hr)]
      exact ⟨by simp [this], ends_self _ _ _ _ _ (by simp [hw])⟩

/-- What the backward part makes of a word. -/
def back (p1 p2 : Nat) (m : List Char) : List Char :=
  if English.step1a m ∈ invariants then English.step1a m
  else English.step5 p1 p2 (English.step4 p2 (English.step3 p1 p2 (English.step2 p1 (English.step1c (English.step1b p1 (English.step1a m))))))

theorem backward_eq (p1 p2 : Nat) (m : List Char) (lb b k : Nat) :
    ∃ b' k', backward p1 p2 (fenv [] m lb b k) = fenv [] (back p1 p2 m) 0 b' k' := by
  have hz : ∀ (w : List Char) (b k : Nat), (env [] w w.length b k).limit - (env [] w w.length b k).cursor = 0 := fun w b k => by
    rw [env_dist]; omega
  unfold backward
  have h0 : ({ fenv [] m lb b k with limitBackward := (fenv [] m lb b k).cursor } : Env).goTo
      ({ fenv [] m lb b k with limitBackward := (fenv [] m lb b k).cursor } : Env).limit = env [] m m.length b k := by
    simp [fenv, env, Env.goTo]
  dsimp only
  rw [h0]
  obtain ⟨b1, k1, h1⟩ := goEnd_of (step1a_eq m b k) _ (hz m b k)
  rw [h1]
  obtain ⟨h2, h3⟩ := exception2_eq (English.step1a m) b1 k1
  have fin : ∀ (s : List Char) (e : Env), EndsIn [] s e → ∃ b' k', e.goTo e.limitBackward = fenv [] s 0 b' k' := by
    rintro s e ⟨n, b, k, _, rfl⟩
    exact ⟨b, k, by simp [env, fenv, Env.goTo]⟩
  generalize exception2 (env [] (English.step1a m) (English.step1a m).length b1 k1) = x at h2 h3
  obtain ⟨x1, e⟩ := x
  unfold back
  by_cases hi : English.step1a m ∈ invariants
  · obtain rfl : x1 = true := by simpa [hi] using h2
    rw [if_pos hi]
    exact fin _ _ h3
  · obtain rfl : x1 = false := by simpa [hi] using h2
    rw [if_neg hi]
    obtain ⟨b2, k2, h4⟩ := goEnd_of h3 _ (hz (English.step1a m) b1 k1)
    dsimp only
    rw [h4]
    exact fin _ _ (steps_eq p1 p2 _ _ _)

/-- The first character, and the others marked. -/
def mark2 : List Char → List Char
  | [] => []
  | c :: w => c :: markFrom c w

theorem markFrom_length (p : Char) (w : List Char) : (markFrom p w).length = w.length := by
  induction w generalizing p with
  | nil => rfl
  | cons c w ih => simp [markFrom, ih]

theorem mark2_length (w : List Char) : (mark2 w).length = w.length := by
  cases w <;> simp [mark2, markFrom_length]

theorem vowelY_fenv (a b : List Char) (lb bra ket : Nat) : (∃ v t, b = v :: 'y' :: t ∧ isVowel v = true ∧
      vowelY (fenv a b lb bra ket) = (true, fenv a b lb (a.length + 1) (a.length + 2))) ∨
    ((∀ v t, b = v :: 'y' :: t → isVowel v = false) ∧ (vowelY (fenv a b lb bra ket)).1 = false) := by
  unfold vowelY vowel
  dsimp only
  rw [grouping_fenv]
  cases b with
  | nil => right; simp
  | cons v b =>
    dsimp only
    rw [vowel_bits]
    by_cases hv : isVowel v = true
    · simp only [hv, beq_self_eq_true, if_true]
      have : (fenv (a ++ [v]) b lb bra ket).setBra = fenv (a ++ [v]) b lb (a.length + 1) ket := by simp [fenv, Env.setBra]
      rw [this, eqS_fenv]
      cases b with
      | nil => right; simp
      | cons c b =>
        dsimp only
        by_cases hc : c = 'y'
        · left
          subst hc
          refine ⟨v, b, rfl, hv, ?_⟩
          simp only [if_true]
          simp [fenv, Env.setKet, Env.goTo]; omega
        · right
          rw [if_neg hc]
          refine ⟨?_, rfl⟩
          intro v' t h
          simp at h
          exact absurd h.2.1 hc
    · right
      have : isVowel v = false := by simpa using hv
      simp only [this]
      refine ⟨?_, rfl⟩
      intro v' t h
      simp at h
      rw [← h.1]; exact this

theorem goUntil_vowelY (a b : List Char) (lb bra ket : Nat) :
    (mark2 b = b ∧ goUntil vowelY (fenv a b lb bra ket) = (false, fenv (a ++ b) [] lb bra ket)) ∨
    ∃ x v y, b = x ++ v :: 'y' :: y ∧ isVowel v = true ∧ mark2 b = x ++ mark2 (v :: 'Y' :: y) ∧
      goUntil vowelY (fenv a b lb bra ket) =
        (true, fenv (a ++ x) (v :: 'y' :: y) lb ((a ++ x).length + 1) ((a ++ x).length + 2)) := by
  induction b generalizing a with
  | nil =>
    left
    refine ⟨rfl, ?_⟩
    unfold goUntil
    rcases vowelY_fenv a [] lb bra ket with ⟨v, t, h, -⟩ | ⟨-, h⟩
    · simp at h
    · generalize vowelY (fenv a [] lb bra ket) = x at h
      obtain ⟨x1, x2⟩ := x
      obtain rfl : x1 = false := h
      simp [fenv]
  | cons c b ih =>
    rcases vowelY_fenv a (c :: b) lb bra ket with ⟨v, t, h, hv, h'⟩ | ⟨hno, h⟩
    · right
      refine ⟨[], v, t, by simpa using h, hv, ?_, ?_⟩
      · rw [h]
        simp [mark2, markFrom, hv]
      · unfold goUntil
        rw [h', h]
        simp
    · have hstep : goUntil vowelY (fenv a (c :: b) lb bra ket) = goUntil vowelY (fenv (a ++ [c]) b lb bra ket) := by
        conv => lhs; unfold goUntil
        generalize vowelY (fenv a (c :: b) lb bra ket) = x at h
        obtain ⟨x1, x2⟩ := x
        obtain rfl : x1 = false := h
        dsimp only
        rw [if_neg (by simp [fenv]), fenv_next]
      have hm : mark2 (c :: b) = c :: mark2 b := by
        cases b with
        | nil => rfl
        | cons d b =>
          have : ¬ (d = 'y' ∧ isVowel c = true) := by
            rintro ⟨rfl, h2⟩
            have := hno c b rfl
            simp [h2] at this
          simp only [mark2, markFrom, this, if_false]
      rw [hstep, hm]
      rcases ih (a ++ [c]) with ⟨h1, h2⟩ | ⟨x, v, y, h1, hv, h2, h3⟩
      · left
        refine ⟨by rw [h1], ?_⟩
        rw [h2]; simp
      · right
        refine ⟨c :: x, v, y, by simp [h1], hv, by rw [h2]; rfl, ?_⟩
        rw [h3]; simp

theorem moreY_eq (rounds : Nat) (found : Bool) (a b : List Char) (lb bra ket : Nat) (hr : b.count 'y' < rounds) :
    ∃ n bra' ket', moreY rounds found (fenv a b lb bra ket) =
      some (found || decide (mark2 b ≠ b), ⟨a ++ mark2 b, n, a.length + b.length, lb, bra', ket'⟩) := by
  induction rounds generalizing a b bra ket found with
  | zero => omega
  | succ rounds ih =>
    unfold moreY
    rcases goUntil_vowelY a b lb bra ket with ⟨h1, h2⟩ | ⟨x, v, y, h1, hv, h2, h3⟩
    · rw [h2, h1]
      exact ⟨a.length, bra, ket, by simp [fenv, Env.goTo]⟩
    · rw [h3]
      have hsl : (fenv (a ++ x) (v :: 'y' :: y) lb ((a ++ x).length + 1) ((a ++ x).length + 2)).sliceFrom ['Y'] =
          fenv (a ++ x) (v :: 'Y' :: y) lb ((a ++ x).length + 1) ((a ++ x).length + 2) := by
        unfold Env.sliceFrom Env.replace fenv
        simp only [Env.mk.injEq, and_true]
        refine ⟨?_, ?_, ?_⟩
        · rw [max_eq_right (by omega)]
          rw [List.take_append, List.drop_append, List.take_of_length_le (by omega), List.drop_of_length_le (by omega)]
          simp only [Nat.add_sub_cancel_left]
          simp
        · rw [if_neg (by omega), if_neg (by omega)]
        · simp; omega
      dsimp only
      rw [hsl]
      have hvy : ('Y' : Char) ≠ 'y' := by decide
      have hcount : (v :: 'Y' :: y).count 'y' < rounds := by
        rw [h1, List.count_append, List.count_cons, List.count_cons_self] at hr
        rw [List.count_cons, List.count_cons_of_ne hvy]
        omega
      obtain ⟨n, bra', ket', h4⟩ := ih true (a ++ x) (v :: 'Y' :: y) ((a ++ x).length + 1) ((a ++ x).length + 2) hcount
      refine ⟨n, bra', ket', ?_⟩
      rw [h4, h2]
      have hne : x ++ mark2 (v :: 'Y' :: y) ≠ b := by
        rw [h1]
        intro h
        have := List.append_cancel_left h
        simp [mark2, markFrom] at this
      have hl : (a ++ x).length + (v :: 'Y' :: y).length = a.length + b.length := by rw [h1]; simp; omega
      rw [hl]
      simp [hne]

theorem markY_cons (c : Char) (w : List Char) : markY (c :: w) = mark2 ((if c = 'y' then 'Y' else c) :: w) := rfl

theorem dropQuote_eq (w : List Char) (lb b k : Nat) : ∃ b' k',
    dropQuote (fenv [] w lb b k) = fenv [] (English.dropQuote w) lb b' k' := by
  unfold dropQuote
  have h0 : (fenv [] w lb b k).setBra = fenv [] w lb 0 k := rfl
  rw [h0]
  dsimp only
  rw [eqS_fenv]
  cases w with
  | nil => exact ⟨0, k, rfl⟩
  | cons c w =>
    by_cases hc : c = '\''
    · subst hc
      refine ⟨0, 1, ?_⟩
      simp [fenv, Env.setKet, Env.sliceDel, Env.sliceFrom, Env.replace, Env.goTo, English.dropQuote]
    · refine ⟨0, k, ?_⟩
      simp only [hc, if_false]
      have : English.dropQuote (c :: w) = c :: w := by
        unfold English.dropQuote
        split
        · rename_i h; simp at h; exact absurd h.1 hc
        · rfl
      rw [this]
      simp [fenv, Env.goTo]

theorem firstY_eq (w : List Char) (lb b k : Nat) : ∃ b' k', firstY (fenv [] w lb b k) = (decide (w.head? = some 'y'),
    fenv [] (match w with | [] => [] | c :: w => (if c = 'y' then 'Y' else c) :: w) lb b' k') := by
  unfold firstY
  have h0 : (fenv [] w lb b k).setBra = fenv [] w lb 0 k := rfl
  rw [h0]
  dsimp only
  rw [eqS_fenv]
  cases w with
  | nil => exact ⟨0, k, rfl⟩
  | cons c w =>
    by_cases hc : c = 'y'
    · subst hc
      refine ⟨0, 1, ?_⟩
      simp [fenv, Env.setKet, Env.sliceFrom, Env.replace, Env.goTo]
      omega
    · refine ⟨0, k, ?_⟩
      simp [hc, fenv, Env.goTo]

theorem dropQuote_length (w : List Char) : (English.dropQuote w).length ≤ w.length := by
  unfold English.dropQuote
  split <;> simp

theorem markY_length (w : List Char) : (markY w).length = w.length := by
  cases w with
  | nil => rfl
  | cons c w => rw [markY_cons, mark2_length]; simp

theorem prelude_eq (rounds : Nat) (w : List Char) (lb b k : Nat) (hr : w.length < rounds) : ∃ b' k',
    prelude rounds (fenv [] w lb b k) = some (decide (markY (English.dropQuote w) ≠ English.dropQuote w),
      fenv [] (markY (English.dropQuote w)) lb b' k') := by
  unfold prelude
  obtain ⟨b1, k1, h1⟩ := dropQuote_eq w lb b k
  rw [h1]
  have hlen := dropQuote_length w
  generalize English.dropQuote w = w at hlen
  obtain ⟨b2, k2, h2⟩ := firstY_eq w lb b1 k1
  dsimp only
  rw [h2]
  dsimp only
  cases w with
  | nil =>
    obtain ⟨n, b3, k3, h3⟩ := moreY_eq rounds false [] [] lb b2 k2 (by simp; omega)
    simp only [List.head?_nil, reduceCtorEq, decide_false]
    rw [h3]
    exact ⟨b3, k3, rfl⟩
  | cons c w =>
    dsimp only
    obtain ⟨n, b3, k3, h3⟩ := moreY_eq rounds (decide ((c :: w).head? = some 'y')) [] ((if c = 'y' then 'Y' else c) :: w) lb b2 k2 (by
      have := List.count_le_length (a := 'y') (l := (if c = 'y' then 'Y' else c) :: w)
      simp at this hlen; omega)
    rw [h3, ← markY_cons]
    refine ⟨b3, k3, ?_⟩
    dsimp only
    congr 2
    · by_cases hc : c = 'y'
      · subst hc
        simp [markY]
      · simp [hc]
    · simp [fenv, Env.goTo, markY_length]

theorem markRegions_eq (m : List Char) (lb b k : Nat) : markRegions (fenv [] m lb b k) = (English.r1 m, English.r2 m) := by
  have hV := fun a t => goUntil_grouping true Gv 97 121 isVowel (fun c => by rw [vowel_bits]; simp) a t lb b k
  have hN := fun a t => goUntil_grouping false Gv 97 121 (fun c => !isVowel c) (fun c => by rw [vowel_bits]; cases isVowel c <;> rfl) a t lb b k
  have hP : (markP1 (fenv [] m lb b k) = none ∧ r1 m = m.length) ∨
      ∃ a t, m = a ++ t ∧ markP1 (fenv [] m lb b k) = some (fenv a t lb b k) ∧ r1 m = a.length := by
    unfold markP1 Env.findAmong
    have htd : ((fenv [] m lb b k).current.take (fenv [] m lb b k).limit).drop (fenv [] m lb b k).cursor = m := by simp [fenv]
    dsimp only
    rw [htd]
    unfold r1
    cases hl : longestOf (A0.filter fun a => a.str.isPrefixOf m) with
    | none =>
      have hnil := longestOf_none hl
      have hf : (words ["gener", "commun", "arsen"]).find? (fun b => b.isPrefixOf m) = none := by
        rw [List.find?_eq_none]
        intro s hs hp
        have : s ∈ A0.map (·.str) := (sameMem (l2 := words ["gener", "commun", "arsen"]) (by decide) s).2 hs
        obtain ⟨a, ha, rfl⟩ := List.mem_map.1 this
        have : a ∈ A0.filter fun a => a.str.isPrefixOf m := List.mem_filter.2 ⟨ha, hp⟩
        rw [hnil] at this
        simp at this
      rw [hf]
      dsimp only
      rw [if_neg (by simp)]
      have hgo : (fenv [] m lb b k).goTo (fenv [] m lb b k).cursor = fenv [] m lb b k := rfl
      rw [hgo]
      unfold vowel nonVowel
      rw [hV]
      unfold through
      cases h1 : after isVowel m with
      | none => left; simp
      | some x1 =>
        obtain ⟨a1, t1⟩ := x1
        simp only
        rw [hN]
        unfold through
        cases h2 : after (fun c => !isVowel c) t1 with
        | none => left; simp
        | some x2 =>
          obtain ⟨a2, t2⟩ := x2
          right
          refine ⟨a1 ++ a2, t2, ?_, ?_, ?_⟩
          · rw [(after_some h1).1, (after_some h2).1]; simp
          · simp
          · simp [through]
    | some a =>
      obtain ⟨ha', -⟩ := longestOf_some hl
      obtain ⟨ha, hp⟩ : a ∈ A0 ∧ a.str <+: m := by simpa using ha'
      clear ha'
      obtain ⟨t, rfl⟩ := hp
      right
      refine ⟨a.str, t, rfl, ?_, ?_⟩
      · have : ∀ a ∈ A0, a.b ≠ 0 := by decide
        simp only [ne_eq, this a ha, not_false_iff, if_true]
        simp [fenv, Env.goTo]
      · have hf : (words ["gener", "commun", "arsen"]).find? (fun b => b.isPrefixOf (a.str ++ t)) = some a.str := by
          simp only [A0, List.mem_cons, List.not_mem_nil, or_false] at ha
          rcases ha with rfl | rfl | rfl <;> rfl
        rw [hf]
  unfold markRegions
  have hlim : (fenv [] m lb b k).limit = m.length := by simp [fenv]
  rw [hlim]
  unfold r2
  rcases hP with ⟨h1, h2⟩ | ⟨a, t, rfl, h1, h2⟩
  · rw [h1, h2]
    simp [through, after]
  · rw [h1, h2]
    have hc : (fenv a t lb b k).cursor = a.length := rfl
    rw [List.drop_left' rfl]
    dsimp only
    rw [hc]
    unfold vowel nonVowel
    rw [hV]
    unfold through
    cases h1 : after isVowel t with
    | none => simp
    | some x1 =>
      obtain ⟨a1, t1⟩ := x1
      simp only
      rw [hN]
      unfold through
      cases h2 : after (fun c => !isVowel c) t1 with
      | none => simp
      | some x2 =>
        obtain ⟨a2, t2⟩ := x2
        simp [through, fenv]

theorem goUntil_atBigY (a b : List Char) (lb bra ket : Nat) :
    ('Y' ∉ b ∧ goUntil atBigY (fenv a b lb bra ket) = (false, fenv (a ++ b) [] lb bra ket)) ∨
    ∃ x y, b = x ++ 'Y' :: y ∧ 'Y' ∉ x ∧ goUntil atBigY (fenv a b lb bra ket) =
      (true, fenv (a ++ x) ('Y' :: y) lb (a ++ x).length ((a ++ x).length + 1)) := by
  have htest : ∀ a b, atBigY (fenv a b lb bra ket) = match b with
      | [] => (false, fenv a b lb a.length ket)
      | c :: b => if c = 'Y' then (true, fenv a (c :: b) lb a.length (a.length + 1)) else (false, fenv a (c :: b) lb a.length ket) := by
    intro a b
    unfold atBigY
    have : (fenv a b lb bra ket).setBra = fenv a b lb a.length ket := rfl
    rw [this]
    dsimp only
    rw [eqS_fenv]
    cases b with
    | nil => rfl
    | cons c b =>
      dsimp only
      by_cases hc : c = 'Y'
      · simp only [hc, if_true]
        simp [fenv, Env.setKet, Env.goTo]; omega
      · simp only [hc, if_false]
  induction b generalizing a with
  | nil =>
    left
    refine ⟨by simp, ?_⟩
    unfold goUntil
    rw [htest]
    simp [fenv]
  | cons c b ih =>
    by_cases hc : c = 'Y'
    · right
      refine ⟨[], b, by simp [hc], by simp, ?_⟩
      unfold goUntil
      rw [htest]
      simp [hc]
    · have hstep : goUntil atBigY (fenv a (c :: b) lb bra ket) = goUntil atBigY (fenv (a ++ [c]) b lb bra ket) := by
        conv => lhs; unfold goUntil
        rw [htest]
        simp only [hc, if_false]
        rw [if_neg (by simp [fenv]), fenv_next]
      rw [hstep]
      rcases ih (a ++ [c]) with ⟨h1, h2⟩ | ⟨x, y, h1, h2, h3⟩
      · left
        refine ⟨by simp [h1, Ne.symm hc], ?_⟩
        rw [h2]; simp
      · right
        refine ⟨c :: x, y, by simp [h1], by simp [h2, Ne.symm hc], ?_⟩
        rw [h3]; simp

theorem unmark_id {w : List Char} (h : 'Y' ∉ w) : unmark w = w := by
  unfold unmark
  conv => rhs; rw [← List.map_id w]
  refine List.map_congr_left fun c hc => ?_
  rw [if_neg]
  · rfl
  · rintro rfl; exact h hc

theorem smallY_eq (rounds : Nat) (a b : List Char) (lb bra ket : Nat) (hr : b.count 'Y' < rounds) :
    ∃ n bra' ket', smallY rounds (fenv a b lb bra ket) = some ⟨a ++ unmark b, n, a.length + b.length, lb, bra', ket'⟩ := by
  induction rounds generalizing a b bra ket with
  | zero => omega
  | succ rounds ih =>
    unfold smallY
    rcases goUntil_atBigY a b lb bra ket with ⟨h1, h2⟩ | ⟨x, y, h1, h2, h3⟩
    · rw [h2, unmark_id h1]
      exact ⟨a.length, bra, ket, by simp [fenv, Env.goTo]⟩
    · rw [h3]
      have hsl : (fenv (a ++ x) ('Y' :: y) lb (a ++ x).length ((a ++ x).length + 1)).sliceFrom ['y'] =
          fenv (a ++ x) ('y' :: y) lb (a ++ x).length ((a ++ x).length + 1) := by
        unfold Env.sliceFrom Env.replace fenv
        simp only [Env.mk.injEq, and_true]
        refine ⟨?_, ?_, ?_⟩
        · rw [max_eq_right (by omega)]
          rw [List.take_left' rfl, List.drop_append]
          simp
        · rw [if_neg (by omega), if_neg (by omega)]
        · simp; omega
      dsimp only
      rw [hsl]
      have hcount : ('y' :: y).count 'Y' < rounds := by
        rw [h1, List.count_append, List.count_cons_self] at hr
        rw [List.count_cons_of_ne (by decide)]
        omega
      obtain ⟨n, bra', ket', h4⟩ := ih (a ++ x) ('y' :: y) (a ++ x).length ((a ++ x).length + 1) hcount
      refine ⟨n, bra', ket', ?_⟩
      rw [h4, h1]
      have : unmark (x ++ 'Y' :: y) = x ++ unmark ('y' :: y) := by
        have := unmark_id h2
        unfold unmark at *
        rw [List.map_append, this]
        rfl
      rw [this]
      simp; omega

theorem exception1_eq (w : List Char) :
    (∃ s e, exceptions.lookup w = some s ∧ exception1 (newEnv w) = (true, e) ∧ e.current = s) ∨
    (exceptions.lookup w = none ∧ ∃ n b k, exception1 (newEnv w) = (false, ⟨w, n, w.length, 0, b, k⟩)) := by
  by_cases hw : w ∈ A10.map (·.str)
  · left
    have h : ∀ s ∈ A10.map (·.str), (exception1 (newEnv s)).1 = true ∧
      exceptions.lookup s = some (exception1 (newEnv s)).2.current := by decide
    obtain ⟨h1, h2⟩ := h w hw
    refine ⟨_, (exception1 (newEnv w)).2, h2, ?_, rfl⟩
    rw [← h1]
  · right
    constructor
    · have hk : ∀ s, s ∈ A10.map (·.str) ↔ s ∈ exceptions.map (·.1) := sameMem (by decide)
      cases hl : exceptions.lookup w with
      | none => rfl
      | some s =>
        exfalso
        apply hw
        rw [hk]
        obtain ⟨l1, l2, h1, -⟩ := List.lookup_eq_some_iff.1 hl
        rw [h1]
        simp
    · unfold exception1 Env.findAmong
      have htd : ((newEnv w).setBra.current.take (newEnv w).setBra.limit).drop (newEnv w).setBra.cursor = w := by
        simp [newEnv, Env.setBra]
      rw [htd]
      cases hl : longestOf (A10.filter fun a => a.str.isPrefixOf w) with
      | none => exact ⟨_, _, _, rfl⟩
      | some a =>
        obtain ⟨ha, -⟩ := longestOf_some hl
        obtain ⟨ha, t, ht⟩ : a ∈ A10 ∧ a.str <+: w := by simpa using ha
        have hb : ∀ a ∈ A10, a.b ≠ 0 := by decide
        dsimp only
        rw [if_neg (hb a ha), if_pos]
        · exact ⟨_, _, _, rfl⟩
        · have : t ≠ [] := by
            rintro rfl
            apply hw
            rw [← ht]
            simpa using ⟨a, ha, rfl⟩
          have := List.length_pos_iff.2 this
          simp [newEnv, Env.setBra, Env.setKet, Env.goTo, ← ht]
          omega

/-- Not longer than the word, and with no more `Y`. -/
def Smaller (s w : List Char) : Prop := s.length ≤ w.length ∧ s.count 'Y' ≤ w.count 'Y'

theorem Smaller.refl (w : List Char) : Smaller w w := ⟨Nat.le_refl _, Nat.le_refl _⟩

theorem Smaller.trans {a b c : List Char} (h : Smaller a b) (h' : Smaller b c) : Smaller a c := ⟨h.1.trans h'.1, h.2.trans h'.2⟩

theorem Smaller.tail {r s t : List Char} (h : t.length ≤ s.length) (hY : 'Y' ∉ t) : Smaller (r ++ t) (r ++ s) := by
  constructor
  · simp; omega
  · simp [List.count_eq_zero.2 hY]

theorem Smaller.start (r s : List Char) : Smaller r (r ++ s) := by
  have := Smaller.tail (r := r) (s := s) (t := []) (by simp) (by simp)
  simpa using this

theorem step1a_smaller (w : List Char) : Smaller (English.step1a w) w := by
  unfold English.step1a
  have h0 : Smaller ((remove (words ["'", "'s", "'s'"]) w).getD w) w := by
    unfold remove
    cases h : cut (words ["'", "'s", "'s'"]) w with
    | none => exact Smaller.refl w
    | some x =>
      obtain ⟨r, s⟩ := x
      rw [(cut_some.1 h).1]
      exact Smaller.start r s
  refine Smaller.trans ?_ h0
  generalize (remove (words ["'", "'s", "'s'"]) w).getD w = w
  dsimp only
  split
  · exact Smaller.refl w
  · rename_i r s h
    obtain ⟨rfl, -, -⟩ := cut_some.1 h
    split
    · rename_i hs; subst hs; exact Smaller.tail (by decide) (by decide)
    · split
      · rename_i hs
        have hl : s.length = 3 := by rcases hs with rfl | rfl <;> decide
        split
        · exact Smaller.tail (by rw [hl]; decide) (by decide)
        · exact Smaller.tail (by rw [hl]; decide) (by decide)
      · split
        · split
          · exact Smaller.start r s
          · exact Smaller.refl _
        · exact Smaller.refl _

theorem step1b_smaller (p1 : Nat) (w : List Char) : Smaller (English.step1b p1 w) w := by
  unfold English.step1b
  split
  · exact Smaller.refl w
  · rename_i r s h
    obtain ⟨rfl, hs, -⟩ := cut_some.1 h
    have hl : ∀ s ∈ words ["eed", "eedly", "ed", "edly", "ing", "ingly"], 2 ≤ s.length := by decide
    have hl := hl s hs
    split
    · split
      · exact Smaller.tail (by simpa using hl) (by decide)
      · exact Smaller.refl _
    · split
      · unfold English.step1bEnd
        split
        · exact Smaller.tail (by simp; omega) (by decide)
        · split
          · refine Smaller.trans ?_ (Smaller.start r s)
            exact ⟨by simp, (List.dropLast_sublist r).count_le _⟩
          · split
            · exact Smaller.tail (by simp; omega) (by decide)
            · exact Smaller.start r s
      · exact Smaller.refl _

theorem step1c_smaller (w : List Char) : Smaller (English.step1c w) w := by
  unfold English.step1c
  split
  · rename_i c n x y h
    split
    · have hw : w = w.dropLast ++ [c] := by
        have : w = (c :: n :: x :: y).reverse := by rw [← h, List.reverse_reverse]
        rw [this]; simp
      conv => rhs; rw [hw]
      exact Smaller.tail (by simp) (by decide)
    · exact Smaller.refl w
  · exact Smaller.refl w

theorem step2_smaller (p1 : Nat) (w : List Char) : Smaller (English.step2 p1 w) w := by
  unfold English.step2
  split
  · exact Smaller.refl w
  · rename_i r s h
    obtain ⟨rfl, hs, -⟩ := cut_some.1 h
    have hl : ∀ s ∈ endings2.map (·.1), ((endings2.lookup s).getD []).length ≤ s.length ∧ 'Y' ∉ (endings2.lookup s).getD [] := by decide
    split
    · exact Smaller.tail (hl s hs).1 (hl s hs).2
    · exact Smaller.refl _

theorem step3_smaller (p1 p2 : Nat) (w : List Char) : Smaller (English.step3 p1 p2 w) w := by
  unfold English.step3
  split
  · exact Smaller.refl w
  · rename_i r s h
    obtain ⟨rfl, hs, -⟩ := cut_some.1 h
    have hl : ∀ s ∈ endings3.map (·.1), ((endings3.lookup s).getD []).length ≤ s.length ∧ 'Y' ∉ (endings3.lookup s).getD [] := by decide
    split
    · exact Smaller.tail (hl s hs).1 (hl s hs).2
    · exact Smaller.refl _

theorem step4_smaller (p2 : Nat) (w : List Char) : Smaller (English.step4 p2 w) w := by
  unfold English.step4
  split
  · exact Smaller.refl w
  · rename_i r s h
    obtain ⟨rfl, hs, -⟩ := cut_some.1 h
    split
    · exact Smaller.start r s
    · exact Smaller.refl _

theorem step5_smaller (p1 p2 : Nat) (w : List Char) : Smaller (English.step5 p1 p2 w) w := by
  unfold English.step5
  split
  · exact Smaller.refl w
  · rename_i r s h
    obtain ⟨rfl, hs, -⟩ := cut_some.1 h
    split
    · split
      · exact Smaller.start r s
      · exact Smaller.refl _
    · split
      · exact Smaller.start r s
      · exact Smaller.refl _

theorem back_smaller (p1 p2 : Nat) (m : List Char) : Smaller (back p1 p2 m) m := by
  unfold back
  split
  · exact step1a_smaller m
  · exact (step5_smaller _ _ _).trans ((step4_smaller _ _).trans ((step3_smaller _ _ _).trans ((step2_smaller _ _).trans
      ((step1c_smaller _).trans ((step1b_smaller _ _).trans (step1a_smaller m))))))

theorem stem_spec (w : List Char) (he : exceptions.lookup w = none) (h3 : ¬ w.length < 3) : English.stem w =
    let bare := English.dropQuote w
    let m := markY bare
    if m = bare then back (English.r1 m) (English.r2 m) m else unmark (back (English.r1 m) (English.r2 m) m) := by
  unfold English.stem
  rw [he]
  dsimp only
  rw [if_neg h3]
  rfl

/-- The generated code computes the published algorithm. -/
theorem stem_eq (w : List Char) (rounds : Nat) (hr : w.length < rounds) :
    ∃ e, stem rounds (newEnv w) = some e ∧ e.current = English.stem w := by
  unfold stem
  dsimp only
  rcases exception1_eq w with ⟨s, e, h1, h2, h3⟩ | ⟨h1, n, b, k, h2⟩
  · rw [h2]
    refine ⟨e, rfl, ?_⟩
    rw [h3]
    unfold English.stem
    rw [h1]
  · rw [h2]
    dsimp only
    have hgo : ∀ n, (⟨w, n, w.length, 0, b, k⟩ : Env).goTo (newEnv w).cursor = fenv [] w 0 b k := by
      intro n; simp [newEnv, fenv, Env.goTo]
    rw [hgo]
    by_cases hl : w.length < 3
    · rw [if_pos (by simp [fenv]; omega)]
      refine ⟨_, rfl, ?_⟩
      unfold English.stem
      rw [h1]
      simp [hl, fenv]
    · rw [if_neg (by simp [fenv]; omega), stem_spec w h1 hl]
      have hgo' : (fenv [] w 0 b k).goTo (newEnv w).cursor = fenv [] w 0 b k := rfl
      rw [hgo']
      obtain ⟨b1, k1, h3⟩ := prelude_eq rounds w 0 b k hr
      rw [h3]
      dsimp only
      rw [markRegions_eq]
      dsimp only
      obtain ⟨b2, k2, h4⟩ := backward_eq (English.r1 (markY (English.dropQuote w))) (English.r2 (markY (English.dropQuote w)))
        (markY (English.dropQuote w)) 0 b1 k1
      rw [h4]
      unfold postlude
      by_cases hm : markY (English.dropQuote w) = English.dropQuote w
      · simp only [ne_eq, hm, not_true_eq_false, decide_false, Bool.false_eq_true, if_false, if_true]
        refine ⟨_, rfl, ?_⟩
        simp [fenv, Env.goTo]
      · simp only [ne_eq, hm, not_false_eq_true, decide_true, if_true, if_false]
        have hc : (back (English.r1 (markY (English.dropQuote w))) (English.r2 (markY (English.dropQuote w)))
            (markY (English.dropQuote w))).count 'Y' < rounds := by
          have h5 := (back_smaller (English.r1 (markY (English.dropQuote w))) (English.r2 (markY (English.dropQuote w)))
            (markY (English.dropQuote w))).2
          have h6 := List.count_le_length (a := 'Y') (l := markY (English.dropQuote w))
          rw [markY_length] at h6
          have := dropQuote_length w
          omega
        obtain ⟨n', b3, k3, h5⟩ := smallY_eq rounds [] _ 0 b2 k2 hc
        rw [h5]
        exact ⟨_, rfl, rfl⟩

/-- A stem is not longer than the word. -/
theorem stem_length (w : List Char) : (English.stem w).length ≤ w.length := by
  cases h1 : exceptions.lookup w with
  | some s =>
    have hk : ∀ x ∈ exceptions, x.2.length ≤ x.1.length := by decide
    obtain ⟨l1, l2, h2, -⟩ := List.lookup_eq_some_iff.1 h1
    have := hk (w, s) (by rw [h2]; simp)
    unfold English.stem
    rw [h1]
    exact this
  | none =>
    by_cases hl : w.length < 3
    · unfold English.stem
      rw [h1]
      simp [hl]
    · rw [stem_spec w h1 hl]
      have h5 := (back_smaller (English.r1 (markY (English.dropQuote w))) (English.r2 (markY (English.dropQuote w)))
        (markY (English.dropQuote w))).1
      rw [markY_length] at h5
      have := dropQuote_length w
      dsimp only
      split
      · omega
      · simp only [unmark, List.length_map]; omega

end Verif.En
