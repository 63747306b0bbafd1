import Verif.Model.RussianStemmer
import Verif.Proofs.Snowball
import Mathlib.Tactic.IntervalCases
/- The generated stemmer for Russian computes the published algorithm. -/
namespace Verif.Ru
open Snowball Stemming

theorem isVowel_bits (c : Char) : Russian.isVowel c = (inBits Gv 1072 1103 c == true) := by
  have hc : ∀ d : Char, c = d ↔ c.toNat = d.toNat := fun d => ⟨fun h => by rw [h], fun h => Char.toNat_inj.1 h⟩
  unfold Russian.isVowel inBits
  simp only [List.mem_cons, List.not_mem_nil, or_false, hc]
  generalize c.toNat = n
  by_cases h : 1072 ≤ n ∧ n ≤ 1103
  · obtain ⟨h1, h2⟩ := h
    interval_cases n <;> decide
  · have h1 : (decide (1072 ≤ n) && decide (n ≤ 1103)) = false := by
      rw [Bool.eq_false_iff]; simpa using h
    rw [h1, Bool.false_and]
    simp only [beq_true, decide_eq_false_iff_not]
    simp only [Char.reduceToNat]
    omega

theorem nonVowel_bits (c : Char) : (!Russian.isVowel c) = (inBits Gv 1072 1103 c == false) := by
  rw [isVowel_bits]
  cases inBits Gv 1072 1103 c <;> rfl

theorem markRegions_eq (w : List Char) (lb bra ket : Nat) :
    markRegions (fenv [] w lb bra ket) = ((Russian.splitRV w).1.length, Russian.r2 w) := by
  have hV := fun a b => goUntil_grouping true Gv 1072 1103 _ isVowel_bits a b lb bra ket
  have hN := fun a b => goUntil_grouping false Gv 1072 1103 _ nonVowel_bits a b lb bra ket
  unfold markRegions Russian.splitRV Russian.r2 through vowel nonVowel
  have hl : (fenv [] w lb bra ket).limit = w.length := by simp [fenv]
  rw [hV, hl]
  cases h1 : after Russian.isVowel w with
  | none => simp
  | some x1 =>
    obtain ⟨a1, b1⟩ := x1
    simp only [through]
    rw [hN]
    cases h2 : after (fun c => !Russian.isVowel c) b1 with
    | none => simp [fenv]
    | some x2 =>
      obtain ⟨a2, b2⟩ := x2
      simp only
      rw [hV]
      cases h3 : after Russian.isVowel b2 with
      | none => simp [fenv]
      | some x3 =>
        obtain ⟨a3, b3⟩ := x3
        simp only
        rw [hN]
        cases h4 : after (fun c => !Russian.isVowel c) b3 with
        | none => simp [fenv]
        | some x4 => simp [fenv]

/-- One routine "remove the longest ending". -/
theorem removeB {t : List Among} {ends : List (List Char)} (hm : ∀ s, s ∈ t.map (·.str) ↔ s ∈ ends) (hb : ∀ a ∈ t, a.b ≠ 0)
    (h w : List Char) (b k : Nat) :
    (match (env h w w.length b k).setKet.findAmongB t with
      | (among, e) => if among = 0 then (false, e) else (true, e.setBra.sliceDel)) =
      match remove ends w with
      | none => (false, env h w w.length b (h.length + w.length))
      | some r => (true, env h r r.length (h.length + r.length) (h.length + w.length)) := by
  unfold remove
  rw [env_setKet, ← cut_congr hm]
  rcases findAmongB_env t h w b (h.length + w.length) with ⟨h1, h2⟩ | ⟨r, a, ha, hw, h1, h2⟩
  · rw [h1, h2]; simp
  · rw [h1, h2]
    simp only [hb a ha, if_false, Option.map_some, env_setBra]
    rw [hw, sliceDel_env _ _ _ _ (by simp), Nat.min_self]

theorem sameMem {l1 l2 : List (List Char)} (h : (l1.all (· ∈ l2) && l2.all (· ∈ l1)) = true) (s : List Char) : s ∈ l1 ↔ s ∈ l2 := by
  simp only [Bool.and_eq_true, List.all_eq_true, decide_eq_true_eq] at h
  exact ⟨h.1 s, h.2 s⟩

theorem adjective_eq (h w : List Char) (b k : Nat) : adjective (env h w w.length b k) = match remove Russian.adjective w with
      | none => (false, env h w w.length b (h.length + w.length))
      | some r => (true, env h r r.length (h.length + r.length) (h.length + w.length)) :=
  removeB (t := A1) (sameMem (by decide)) (by decide) h w b k

theorem reflexive_eq (h w : List Char) (b k : Nat) : reflexive (env h w w.length b k) = match remove Russian.reflexive w with
      | none => (false, env h w w.length b (h.length + w.length))
      | some r => (true, env h r r.length (h.length + r.length) (h.length + w.length)) :=
  removeB (t := A3) (sameMem (by decide)) (by decide) h w b k

theorem noun_eq (h w : List Char) (b k : Nat) : noun (env h w w.length b k) = match remove Russian.noun w with
      | none => (false, env h w w.length b (h.length + w.length))
      | some r => (true, env h r r.length (h.length + r.length) (h.length + w.length)) :=
  removeB (t := A5) (sameMem (by decide)) (by decide) h w b k

/-- The block "а or я before the ending". -/
theorem deleteAfterA_eq (h r s : List Char) : deleteAfterA (env h (r ++ s) r.length (h.length + r.length) (h.length + (r ++ s).length)) =
    if r.getLast? = some 'а' ∨ r.getLast? = some 'я' then
      (true, env h r (r.length - 1) (h.length + r.length) (h.length + (r ++ s).length))
    else (false, env h (r ++ s) r.length (h.length + r.length) (h.length + (r ++ s).length)) := by
  unfold deleteAfterA
  simp only [eqSB_env, isSuffixOf_singleton]
  by_cases h1 : r.getLast? = some 'а'
  · simp only [h1, decide_true, if_true, true_or]
    rw [sliceDel_env _ _ _ _ (by simp; omega)]
    simp
  · simp only [h1, decide_false, Bool.false_eq_true, if_false, false_or]
    have hg : (env h (r ++ s) r.length (h.length + r.length) (h.length + (r ++ s).length)).goTo
        ((env h (r ++ s) r.length (h.length + r.length) (h.length + (r ++ s).length)).limit -
          ((env h (r ++ s) r.length (h.length + r.length) (h.length + (r ++ s).length)).limit -
            (env h (r ++ s) r.length (h.length + r.length) (h.length + (r ++ s).length)).cursor)) =
        env h (r ++ s) r.length (h.length + r.length) (h.length + (r ++ s).length) := by
      simp only [env, Env.goTo, Env.mk.injEq, true_and, and_true, List.length_append]; omega
    rw [hg, eqSB_env, isSuffixOf_singleton]
    by_cases h2 : r.getLast? = some 'я'
    · simp only [h2, decide_true, if_true]
      rw [sliceDel_env _ _ _ _ (by simp; omega)]
      simp
    · simp [h2]

/-- What is at the cursor does not matter for what follows: only the text counts. -/
def EndsIn (h w : List Char) (e : Env) : Prop := ∃ n b k, n ≤ w.length ∧ e = env h w n b k

/-- One routine "remove the longest ending, some only behind а or я". -/
theorem removeAfterB {t : List Among} {g1 g2 : List (List Char)} (hm : ∀ s, s ∈ t.map (·.str) ↔ s ∈ g1 ++ g2)
    (hb : ∀ a ∈ t, (a.b = 1 ∧ a.str ∉ g2) ∨ (a.b = 2 ∧ a.str ∈ g2)) (h w : List Char) (b k : Nat) :
    let res := match (env h w w.length b k).setKet.findAmongB t with
      | (among, e) => if among = 0 then (false, e) else
        if among = 1 then deleteAfterA e.setBra else if among = 2 then (true, e.setBra.sliceDel) else (true, e.setBra)
    match Russian.removeAfterA g1 g2 w with
      | none => res.1 = false ∧ EndsIn h w res.2
      | some r => res.1 = true ∧ EndsIn h r res.2 := by
  unfold Russian.removeAfterA
  rw [env_setKet, ← cut_congr hm]
  rcases findAmongB_env t h w b (h.length + w.length) with ⟨h1, h2⟩ | ⟨r, a, ha, hw, h1, h2⟩
  · rw [h1, h2]
    exact ⟨rfl, _, _, _, Nat.le_refl _, rfl⟩
  · rw [h1, h2]
    simp only [env_setBra]
    rcases hb a ha with ⟨h3, h4⟩ | ⟨h3, h4⟩
    · simp only [h3, h4, false_or, if_true, one_ne_zero, if_false]
      rw [hw, deleteAfterA_eq]
      by_cases hl : r.getLast? = some 'а' ∨ r.getLast? = some 'я'
      · simp only [hl, if_true, true_and]
        exact ⟨_, _, _, Nat.sub_le _ _, rfl⟩
      · simp only [hl, if_false, true_and]
        exact ⟨_, _, _, by simp, rfl⟩
    · simp only [h3, h4, true_or, if_true, show ¬ (2 : Int) = 0 by decide, show ¬ (2 : Int) = 1 by decide, if_false, true_and]
      rw [hw, sliceDel_env _ _ _ _ (by simp), Nat.min_self]
      exact ⟨_, _, _, Nat.le_refl _, rfl⟩

theorem gerund_eq (h w : List Char) (b k : Nat) :
    match Russian.removeAfterA Russian.gerund1 Russian.gerund2 w with
      | none => (perfectiveGerund (env h w w.length b k)).1 = false ∧ EndsIn h w (perfectiveGerund (env h w w.length b k)).2
      | some r => (perfectiveGerund (env h w w.length b k)).1 = true ∧ EndsIn h r (perfectiveGerund (env h w w.length b k)).2 :=
  removeAfterB (t := A0) (sameMem (by decide)) (by decide) h w b k

theorem verb_eq (h w : List Char) (b k : Nat) :
    match Russian.removeAfterA Russian.verb1 Russian.verb2 w with
      | none => (verb (env h w w.length b k)).1 = false ∧ EndsIn h w (verb (env h w w.length b k)).2
      | some r => (verb (env h w w.length b k)).1 = true ∧ EndsIn h r (verb (env h w w.length b k)).2 :=
  removeAfterB (t := A4) (sameMem (by decide)) (by decide) h w b k

theorem goEnd_of {h w : List Char} {e : Env} (he : EndsIn h w e) (d : Nat) (hd : d = 0) :
    ∃ b k, e.goTo (e.limit - d) = env h w w.length b k := by
  obtain ⟨n, b, k, _, rfl⟩ := he
  exact ⟨b, k, env_goEnd h w n b k d hd⟩

theorem participle_eq (h w : List Char) (b k : Nat) :
    let res := match (env h w w.length b k).setKet.findAmongB A2 with
      | (among, e) => if among = 0 then (false, e) else
        if among = 1 then deleteAfterA e.setBra else if among = 2 then (true, e.setBra.sliceDel) else (true, e.setBra)
    match Russian.removeAfterA Russian.participle1 Russian.participle2 w with
      | none => res.1 = false ∧ EndsIn h w res.2
      | some r => res.1 = true ∧ EndsIn h r res.2 :=
  removeAfterB (t := A2) (sameMem (by decide)) (by decide) h w b k

theorem adjectival_eq (h w : List Char) (b k : Nat) :
    match remove Russian.adjective w with
      | none => (adjectival (env h w w.length b k)).1 = false ∧ EndsIn h w (adjectival (env h w w.length b k)).2
      | some r => (adjectival (env h w w.length b k)).1 = true ∧
        EndsIn h ((Russian.removeAfterA Russian.participle1 Russian.participle2 r).getD r) (adjectival (env h w w.length b k)).2 := by
  unfold adjectival
  rw [adjective_eq]
  cases remove Russian.adjective w with
  | none => exact ⟨rfl, _, _, _, Nat.le_refl _, rfl⟩
  | some r =>
    simp only
    have hp := participle_eq h r (h.length + r.length) (h.length + w.length)
    simp only at hp
    have hd : (env h r r.length (h.length + r.length) (h.length + w.length)).limit -
        (env h r r.length (h.length + r.length) (h.length + w.length)).cursor = 0 := by rw [env_dist]; omega
    rw [hd]
    generalize hf : (env h r r.length (h.length + r.length) (h.length + w.length)).setKet.findAmongB A2 = f at *
    obtain ⟨among, e⟩ := f
    simp only at hp ⊢
    by_cases h0 : among = 0
    · simp only [h0, if_true] at hp ⊢
      cases hr : Russian.removeAfterA Russian.participle1 Russian.participle2 r with
      | none =>
        simp only [hr, true_and] at hp
        obtain ⟨b', k', h'⟩ := goEnd_of hp 0 rfl
        rw [h']
        exact ⟨trivial, _, _, _, Nat.le_refl _, rfl⟩
      | some r' => simp [hr] at hp
    · simp only [h0, if_false] at hp ⊢
      by_cases h1 : among = 1
      · simp only [h1, if_true] at hp ⊢
        cases hr : Russian.removeAfterA Russian.participle1 Russian.participle2 r with
        | none =>
          simp only [hr] at hp
          obtain ⟨b', k', h'⟩ := goEnd_of hp.2 0 rfl
          generalize hq : deleteAfterA e.setBra = q at *
          obtain ⟨q1, q2⟩ := q
          obtain rfl : q1 = false := hp.1
          simp only at h' ⊢
          rw [h']
          exact ⟨trivial, _, _, _, Nat.le_refl _, rfl⟩
        | some r' =>
          simp only [hr] at hp
          generalize hq : deleteAfterA e.setBra = q at *
          obtain ⟨q1, q2⟩ := q
          obtain rfl : q1 = true := hp.1
          exact ⟨rfl, hp.2⟩
      · simp only [h1, if_false] at hp ⊢
        by_cases h2 : among = 2
        · simp only [h2, if_true] at hp ⊢
          cases hr : Russian.removeAfterA Russian.participle1 Russian.participle2 r with
          | none => simp [hr] at hp
          | some r' => simp only [hr] at hp; exact ⟨trivial, hp.2⟩
        · simp only [h2, if_false] at hp ⊢
          cases hr : Russian.removeAfterA Russian.participle1 Russian.participle2 r with
          | none => simp [hr] at hp
          | some r' => simp only [hr] at hp; exact ⟨trivial, hp.2⟩

theorem step1_eq (h w : List Char) (b k : Nat) : EndsIn h (Russian.step1 w) (step1 (env h w w.length b k)) := by
  unfold step1 Russian.step1
  have hg := gerund_eq h w b k
  have hd : (env h w w.length b k).limit - (env h w w.length b k).cursor = 0 := by rw [env_dist]; omega
  rw [hd]
  generalize perfectiveGerund (env h w w.length b k) = g at hg
  obtain ⟨g1, e1⟩ := g
  cases hr : Russian.removeAfterA Russian.gerund1 Russian.gerund2 w with
  | some r =>
    simp only [hr] at hg
    obtain rfl : g1 = true := hg.1
    exact hg.2
  | none =>
    simp only [hr] at hg
    obtain rfl : g1 = false := hg.1
    obtain ⟨b1, k1, h1⟩ := goEnd_of hg.2 0 rfl
    simp only
    rw [h1, reflexive_eq]
    have key : ∀ (w : List Char) (b k : Nat), EndsIn h (match remove Russian.adjective w with
        | some r => (Russian.removeAfterA Russian.participle1 Russian.participle2 r).getD r
        | none => match Russian.removeAfterA Russian.verb1 Russian.verb2 w with
          | some r => r
          | none => (remove Russian.noun w).getD w)
        (match adjectival (env h w w.length b k) with
          | (true, e) => e
          | (false, e) =>
            match verb (e.goTo (e.limit - ((env h w w.length b k).limit - (env h w w.length b k).cursor))) with
            | (true, e) => e
            | (false, e) => (noun (e.goTo (e.limit - ((env h w w.length b k).limit - (env h w w.length b k).cursor)))).2) := by
      intro w b k
      have hd : (env h w w.length b k).limit - (env h w w.length b k).cursor = 0 := by rw [env_dist]; omega
      rw [hd]
      have ha := adjectival_eq h w b k
      generalize adjectival (env h w w.length b k) = g at ha
      obtain ⟨g1, e1⟩ := g
      cases hr : remove Russian.adjective w with
      | some r =>
        simp only [hr] at ha
        obtain rfl : g1 = true := ha.1
        exact ha.2
      | none =>
        simp only [hr] at ha
        obtain rfl : g1 = false := ha.1
        obtain ⟨b1, k1, h1⟩ := goEnd_of ha.2 0 rfl
        simp only
        rw [h1]
        have hv := verb_eq h w b1 k1
        generalize verb (env h w w.length b1 k1) = g at hv
        obtain ⟨g1, e1⟩ := g
        cases hr : Russian.removeAfterA Russian.verb1 Russian.verb2 w with
        | some r =>
          simp only [hr] at hv
          obtain rfl : g1 = true := hv.1
          exact hv.2
        | none =>
          simp only [hr] at hv
          obtain rfl : g1 = false := hv.1
          obtain ⟨b1, k1, h1⟩ := goEnd_of hv.2 0 rfl
          simp only
          rw [h1, noun_eq]
          cases remove Russian.noun w with
          | some r => exact ⟨_, _, _, Nat.le_refl _, rfl⟩
          | none => exact ⟨_, _, _, Nat.le_refl _, rfl⟩
    cases hr : remove Russian.reflexive w with
    | some r => exact key r _ _
    | none =>
      simp only
      rw [env_goEnd _ _ _ _ _ _ (by rw [env_dist]; omega)]
      exact key w _ _

theorem derivational_eq (p2 : Nat) (h w : List Char) (b k : Nat) :
    EndsIn h (Russian.step3 h.length p2 w) (derivational p2 (env h w w.length b k)).2 := by
  unfold derivational Russian.step3 remove
  rw [env_setKet, ← cut_congr (sameMem (l1 := A6.map (·.str)) (by decide))]
  dsimp only
  rcases findAmongB_env A6 h w b (h.length + w.length) with ⟨h1, h2⟩ | ⟨r, a, ha, hw, h1, h2⟩
  · rw [h1, h2]
    exact ⟨_, _, _, Nat.le_refl _, rfl⟩
  · rw [h1, h2]
    have hb : ∀ a ∈ A6, a.b ≠ 0 := by decide
    simp only [hb a ha, if_false, Option.map_some, env_setBra]
    have hc : rR2 p2 (env h w r.length (h.length + r.length) (h.length + w.length)) = decide (p2 ≤ h.length + r.length) := rfl
    simp only [hc]
    by_cases hp : p2 ≤ h.length + r.length
    · simp only [hp, decide_true, if_true]
      rw [hw, sliceDel_env _ _ _ _ (by simp), Nat.min_self]
      exact ⟨_, _, _, Nat.le_refl _, rfl⟩
    · simp only [hp, decide_false, Bool.false_eq_true, if_false]
      exact ⟨_, _, _, by simp [hw], rfl⟩

theorem cut_append_some {ends : List (List Char)} {r s : List Char} (h : s ∈ ends) : (cut ends (r ++ s)).isSome := by
  rw [Option.isSome_iff_ne_none, Ne, cut_none]
  exact fun h' => h' s (List.suffix_append r s) h

theorem last_of_suffix {s w : List Char} (h : s <:+ w) (hs : s ≠ []) : w.getLast? = s.getLast? := by
  obtain ⟨u, rfl⟩ := h
  rw [List.getLast?_append_of_ne_nil _ hs]

theorem double_suffix (c : Char) (r : List Char) : [c, c].isSuffixOf (r ++ [c]) = [c].isSuffixOf r := by
  rw [Bool.eq_iff_iff, List.isSuffixOf_iff_suffix, List.isSuffixOf_iff_suffix]
  constructor
  · rintro ⟨u, hu⟩
    have : u ++ [c] ++ [c] = r ++ [c] := by simpa using hu
    rw [List.append_left_inj] at this
    exact ⟨u, this⟩
  · rintro ⟨u, rfl⟩
    exact ⟨u, by simp⟩

theorem cut_of_max {ends : List (List Char)} {r s : List Char} (hs : s ∈ ends)
    (hm : ∀ t, t <:+ r ++ s → t ∈ ends → t.length ≤ s.length) : cut ends (r ++ s) = some (r, s) := cut_some.2 ⟨rfl, hs, hm⟩

theorem tidyUp_eq (h w : List Char) (b k : Nat) : EndsIn h (Russian.step4 w) (tidyUp (env h w w.length b k)).2 := by
  unfold tidyUp
  rw [env_setKet]
  dsimp only
  rcases findAmongB_env A7 h w b (h.length + w.length) with ⟨h1, h2⟩ | ⟨r, a, ha, hw, h1, h2⟩
  · rw [h2]
    have hw : Russian.step4 w = w := by
      unfold Russian.step4 remove
      rw [cut_none] at h1
      have e1 : cut Russian.superlative w = none := cut_none.2 fun t ht he => h1 t ht (by
        have : ∀ t ∈ Russian.superlative, t ∈ A7.map (·.str) := by decide
        exact this t he)
      have e2 : cut [['ь']] w = none := cut_none.2 fun t ht he => h1 t ht (by
        have : ∀ t ∈ [['ь']], t ∈ A7.map (·.str) := by decide
        exact this t he)
      rw [e1, e2]
      simp only [Option.map_none]
      unfold Russian.undouble
      rw [if_neg]
      rw [List.isSuffixOf_iff_suffix]
      intro hs
      exact h1 ['н'] (List.IsSuffix.trans ⟨['н'], rfl⟩ hs) (by decide)
    rw [hw]
    exact ⟨_, _, _, Nat.le_refl _, rfl⟩
  · rw [h2]
    obtain ⟨_, _, hmax⟩ := cut_some.1 h1
    have hstep : Russian.step4 w = match a.b with
        | 1 => Russian.undouble r
        | 3 => r
        | _ => Russian.undouble w := by
      have cases4 : a = ⟨['е', 'й', 'ш'], -1, 1⟩ ∨ a = ⟨['ь'], -1, 3⟩ ∨ a = ⟨['е', 'й', 'ш', 'е'], -1, 1⟩ ∨ a = ⟨['н'], -1, 2⟩ := by
        simpa [A7] using ha
      have sup : ∀ t ∈ Russian.superlative, t ∈ A7.map (·.str) := by decide
      have soft : ∀ t ∈ [['ь']], t ∈ A7.map (·.str) := by decide
      have hsup : ∀ s, a.str = s → s ∈ Russian.superlative → cut Russian.superlative w = some (r, s) := fun s e hs => by
        rw [hw, e]
        exact cut_of_max hs fun t ht he => e ▸ hmax t (hw ▸ e ▸ ht) (sup t he)
      have nosup : ∀ c, w.getLast? = some c → c ≠ 'ш' → c ≠ 'е' → cut Russian.superlative w = none := fun c hc h1 h2 =>
        cut_none.2 fun t ht he => by
          have he' : t = ['е', 'й', 'ш'] ∨ t = ['е', 'й', 'ш', 'е'] := by simpa [Russian.superlative, words] using he
          rcases he' with rfl | rfl
          · have := last_of_suffix ht (by simp)
            rw [hc] at this
            exact h1 (by simpa using this)
          · have := last_of_suffix ht (by simp)
            rw [hc] at this
            exact h2 (by simpa using this)
      unfold Russian.step4 remove
      rcases cases4 with rfl | rfl | rfl | rfl
      · rw [hsup _ rfl (by decide)]; rfl
      · have hl : w.getLast? = some 'ь' := by rw [hw]; simp
        rw [nosup 'ь' hl (by decide) (by decide)]
        have : cut [['ь']] w = some (r, ['ь']) := by
          rw [hw]
          exact cut_of_max (by simp) fun t ht he => by simp at he; simp [he]
        rw [this]; rfl
      · rw [hsup _ rfl (by decide)]; rfl
      · have hl : w.getLast? = some 'н' := by rw [hw]; simp
        rw [nosup 'н' hl (by decide) (by decide)]
        have : cut [['ь']] w = none := cut_none.2 fun t ht he => by
          obtain rfl : t = ['ь'] := by simpa using he
          have := last_of_suffix ht (by simp)
          rw [hl] at this
          simp at this
        rw [this]; rfl
    have hb : ∀ a ∈ A7, a.b = 1 ∨ (a.b = 2 ∧ a.str = ['н']) ∨ a.b = 3 := by decide
    rw [hstep]
    rcases hb a ha with h3 | ⟨h3, h4⟩ | h3
    · simp only [h3, one_ne_zero, if_false, if_true, env_setBra]
      rw [hw, sliceDel_env _ _ _ _ (by simp), Nat.min_self, env_setKet]
      have e0 := eqSB_env ['н'] h r [] (h.length + r.length) (h.length + r.length)
      rw [List.append_nil] at e0
      rw [e0]
      unfold Russian.undouble
      by_cases hn : ['н'].isSuffixOf r = true
      · obtain ⟨u, rfl⟩ := List.isSuffixOf_iff_suffix.1 hn
        rw [if_pos hn, double_suffix]
        simp only [env_setBra]
        have e1 : (u ++ ['н']).length - ['н'].length = u.length := by simp
        rw [e1, eqSB_env]
        by_cases hn2 : ['н'].isSuffixOf u = true
        · rw [if_pos hn2, if_pos hn2]
          simp only
          rw [sliceDel_env _ _ _ _ (by simp; omega)]
          rw [List.dropLast_concat]
          exact ⟨_, _, _, by omega, rfl⟩
        · rw [if_neg hn2, if_neg hn2]
          exact ⟨_, _, _, by simp, rfl⟩
      · rw [if_neg hn, if_neg]
        · exact ⟨_, _, _, Nat.le_refl _, rfl⟩
        · intro h'
          rw [List.isSuffixOf_iff_suffix] at h' hn
          exact hn (List.IsSuffix.trans ⟨['н'], rfl⟩ h')
    · simp only [h3, show ¬ (2 : Int) = 0 by decide, show ¬ (2 : Int) = 1 by decide, if_false, if_true, env_setBra]
      rw [hw, h4, eqSB_env]
      unfold Russian.undouble
      rw [double_suffix]
      by_cases hn : ['н'].isSuffixOf r = true
      · rw [if_pos hn, if_pos hn]
        simp only
        rw [sliceDel_env _ _ _ _ (by simp; omega), List.dropLast_concat]
        exact ⟨_, _, _, by omega, rfl⟩
      · rw [if_neg hn, if_neg hn]
        exact ⟨_, _, _, by simp, rfl⟩
    · simp only [h3, show ¬ (3 : Int) = 0 by decide, show ¬ (3 : Int) = 1 by decide, show ¬ (3 : Int) = 2 by decide, if_false,
        if_true, env_setBra]
      rw [hw, sliceDel_env _ _ _ _ (by simp), Nat.min_self]
      exact ⟨_, _, _, Nat.le_refl _, rfl⟩

theorem inRV_eq (p2 : Nat) (h rv : List Char) (b k : Nat) :
    EndsIn h (Russian.step4 (Russian.step3 h.length p2 (Russian.step2 (Russian.step1 rv)))) (inRV p2 (env h rv rv.length b k)) := by
  unfold inRV
  dsimp only
  have hz : ∀ (w : List Char) (b k : Nat), (env h w w.length b k).limit - (env h w w.length b k).cursor = 0 := fun w b k => by
    rw [env_dist]; omega
  obtain ⟨b1, k1, h1⟩ := goEnd_of (step1_eq h rv b k) _ (hz rv b k)
  rw [h1]
  generalize Russian.step1 rv = w1
  have h2 : ∃ b2 k2, step2 (env h w1 w1.length b1 k1) = env h (Russian.step2 w1) (Russian.step2 w1).length b2 k2 := by
    unfold step2
    rw [hz, env_setKet]
    dsimp only
    have e0 := eqSB_env ['и'] h w1 [] b1 (h.length + w1.length)
    rw [List.append_nil] at e0
    rw [e0]
    unfold Russian.step2 remove
    by_cases hs : ['и'].isSuffixOf w1 = true
    · obtain ⟨u, rfl⟩ := List.isSuffixOf_iff_suffix.1 hs
      have hc : cut [['и']] (u ++ ['и']) = some (u, ['и']) := cut_of_max (by simp) fun t ht he => by simp at he; simp [he]
      rw [if_pos hs, hc]
      have e1 : (u ++ ['и']).length - ['и'].length = u.length := by simp
      simp only [env_setBra, e1, Option.map_some, Option.getD_some]
      rw [sliceDel_env _ _ _ _ (by simp), Nat.min_self]
      exact ⟨_, _, rfl⟩
    · have hc : cut [['и']] w1 = none := cut_none.2 fun t ht he => by
        obtain rfl : t = ['и'] := by simpa using he
        exact hs (List.isSuffixOf_iff_suffix.2 ht)
      rw [if_neg hs, hc]
      exact ⟨_, _, rfl⟩
  obtain ⟨b2, k2, h2⟩ := h2
  rw [h2]
  generalize Russian.step2 w1 = w2
  obtain ⟨b3, k3, h3⟩ := goEnd_of (derivational_eq p2 h w2 b2 k2) _ (hz w2 b2 k2)
  rw [h3]
  generalize Russian.step3 h.length p2 w2 = w3
  obtain ⟨b4, k4, h4⟩ := goEnd_of (tidyUp_eq h w3 b3 k3) _ (hz w3 b3 k3)
  rw [h4]
  exact ⟨_, _, _, Nat.le_refl _, rfl⟩

theorem stemEnd_eq (p2 lb bra ket : Nat) (h rv : List Char) :
    (stemEnd h.length p2 (fenv [] (h ++ rv) lb bra ket)).1 = true ∧
    (stemEnd h.length p2 (fenv [] (h ++ rv) lb bra ket)).2.current =
      h ++ Russian.step4 (Russian.step3 h.length p2 (Russian.step2 (Russian.step1 rv))) := by
  unfold stemEnd
  dsimp only
  rw [if_neg (by simp [fenv, Env.goTo])]
  obtain ⟨n, b, k, _, h1⟩ := inRV_eq p2 h rv bra ket
  refine ⟨rfl, ?_⟩
  have e1 : ∀ lb', ({ (⟨h ++ rv, h.length + rv.length, h.length + rv.length, lb', bra, ket⟩ : Env) with limitBackward := h.length } : Env) =
    env h rv rv.length bra ket := fun _ => rfl
  have e2 : (fenv [] (h ++ rv) lb bra ket) = ⟨h ++ rv, 0, h.length + rv.length, lb, bra, ket⟩ := by simp [fenv]
  rw [e2]
  simp only [Env.goTo]
  rw [show (⟨h ++ rv, h.length + rv.length, h.length + rv.length, h.length, bra, ket⟩ : Env) = env h rv rv.length bra ket from rfl, h1]
  rfl

theorem goUntil_atYo (a b : List Char) (lb bra ket : Nat) :
    ('ё' ∉ b ∧ goUntil atYo (fenv a b lb bra ket) = (false, fenv (a ++ b) [] lb bra ket)) ∨
    ∃ x y, b = x ++ 'ё' :: y ∧ 'ё' ∉ x ∧ goUntil atYo (fenv a b lb bra ket) =
      (true, fenv (a ++ x) ('ё' :: y) lb (a ++ x).length ((a ++ x).length + 1)) := by
  have htest : ∀ a b, atYo (fenv a b lb bra ket) = match b with
      | [] => (false, fenv a b lb a.length ket)
      | c :: b => if c = 'ё' then (true, fenv a (c :: b) lb a.length (a.length + 1)) else (false, fenv a (c :: b) lb a.length ket) := by
    intro a b
    unfold atYo
    have : (fenv a b lb bra ket).setBra = fenv a b lb a.length ket := rfl
    rw [this]
    dsimp only
    rw [eqS_fenv]
    cases b with
    | nil => rfl
    | cons c b =>
      dsimp only
      by_cases hc : c = 'ё'
      · simp only [hc, if_true]
        simp [fenv, Env.setKet, Env.goTo]; omega
      · simp only [hc, if_false]
  induction b generalizing a with
  | nil =>
    left
    refine ⟨by simp, ?_⟩
    unfold goUntil
    rw [htest]
    simp [fenv]
  | cons c b ih =>
    by_cases hc : c = 'ё'
    · right
      refine ⟨[], b, by simp [hc], by simp, ?_⟩
      unfold goUntil
      rw [htest]
      simp [hc]
    · have hstep : goUntil atYo (fenv a (c :: b) lb bra ket) = goUntil atYo (fenv (a ++ [c]) b lb bra ket) := by
        conv => lhs; unfold goUntil
        rw [htest]
        simp only [hc, if_false]
        rw [if_neg (by simp [fenv]), fenv_next]
      rw [hstep]
      rcases ih (a ++ [c]) with ⟨h1, h2⟩ | ⟨x, y, h1, h2, h3⟩
      · left
        refine ⟨by simp [h1, Ne.symm hc], ?_⟩
        rw [h2]; simp
      · right
        refine ⟨c :: x, y, by simp [h1], by simp [h2, Ne.symm hc], ?_⟩
        rw [h3]; simp

theorem noYo_id {w : List Char} (h : 'ё' ∉ w) : Russian.noYo w = w := by
  unfold Russian.noYo
  conv => rhs; rw [← List.map_id w]
  refine List.map_congr_left fun c hc => ?_
  rw [if_neg]
  · rfl
  · rintro rfl; exact h hc

theorem replaceYo_eq (rounds : Nat) (a b : List Char) (lb bra ket : Nat) (hr : b.count 'ё' < rounds) :
    ∃ n bra' ket', replaceYo rounds (fenv a b lb bra ket) = some ⟨a ++ Russian.noYo b, n, a.length + b.length, lb, bra', ket'⟩ := by
  induction rounds generalizing a b bra ket with
  | zero => omega
  | succ rounds ih =>
    unfold replaceYo
    rcases goUntil_atYo a b lb bra ket with ⟨h1, h2⟩ | ⟨x, y, h1, h2, h3⟩
    · rw [h2, noYo_id h1]
      exact ⟨a.length, bra, ket, by simp [fenv, Env.goTo]⟩
    · rw [h3]
      have hsl : (fenv (a ++ x) ('ё' :: y) lb (a ++ x).length ((a ++ x).length + 1)).sliceFrom ['е'] =
          fenv (a ++ x) ('е' :: y) lb (a ++ x).length ((a ++ x).length + 1) := by
        unfold Env.sliceFrom Env.replace fenv
        simp only [Env.mk.injEq, and_true]
        refine ⟨?_, ?_, ?_⟩
        · rw [max_eq_right (by omega)]
          rw [List.take_left' rfl, List.drop_append]
          simp
        · rw [if_neg (by omega), if_neg (by omega)]
        · simp; omega
      dsimp only
      rw [hsl]
      have hcount : ('е' :: y).count 'ё' < rounds := by
        rw [h1, List.count_append, List.count_cons_self] at hr
        rw [List.count_cons_of_ne (by decide)]
        omega
      obtain ⟨n, bra', ket', h4⟩ := ih (a ++ x) ('е' :: y) (a ++ x).length ((a ++ x).length + 1) hcount
      refine ⟨n, bra', ket', ?_⟩
      rw [h4, h1]
      have : Russian.noYo (x ++ 'ё' :: y) = x ++ Russian.noYo ('е' :: y) := by
        have := noYo_id h2
        unfold Russian.noYo at *
        rw [List.map_append, this]
        rfl
      rw [this]
      simp; omega

theorem splitRV_append (w : List Char) : (Russian.splitRV w).1 ++ (Russian.splitRV w).2 = w := by
  unfold Russian.splitRV
  cases h : after Russian.isVowel w with
  | none => simp
  | some x => exact (after_some h).1.symm

/-- The generated code computes the published algorithm. -/
theorem stem_eq (w : List Char) (rounds : Nat) (hr : w.count 'ё' < rounds) :
    ∃ e, stem rounds (newEnv w) = some (true, e) ∧ e.current = Russian.stem w := by
  have h0 : newEnv w = fenv [] w 0 0 w.length := by simp [newEnv, fenv]
  obtain ⟨n, bra, ket, h1⟩ := replaceYo_eq rounds [] w 0 0 w.length hr
  unfold stem
  rw [h0, h1]
  have h2 : (⟨[] ++ Russian.noYo w, n, ([] : List Char).length + w.length, 0, bra, ket⟩ : Env).goTo (fenv [] w 0 0 w.length).cursor =
      fenv [] (Russian.noYo w) 0 bra ket := by
    simp [fenv, Env.goTo, Russian.noYo]
  dsimp only
  rw [h2, markRegions_eq]
  dsimp only
  have h3 := stemEnd_eq (Russian.r2 (Russian.noYo w)) 0 bra ket (Russian.splitRV (Russian.noYo w)).1 (Russian.splitRV (Russian.noYo w)).2
  rw [splitRV_append] at h3
  refine ⟨_, ?_, h3.2⟩
  rw [← h3.1]

end Verif.Ru
