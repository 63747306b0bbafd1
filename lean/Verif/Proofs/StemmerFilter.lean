import Verif.Model.StemmerFilter
import Verif.Model.StopWords
import Verif.Proofs.EnglishStemmer
/- The filter, and consequences of the two algorithms. -/
namespace Verif.StemF
open Stemming

variable {τ : Type} [DecidableEq τ]

theorem mem_stopWordsToSet (list : List τ) (t : τ) : t ∈ stopWordsToSet list ↔ t ∈ list := by
  have key : ∀ (list set : List τ), t ∈ list.foldl (fun set word => if set.contains word then set else set ++ [word]) set ↔ t ∈ set ∨ t ∈ list := by
    intro list
    induction list with
    | nil => simp
    | cons w list ih =>
      intro set
      rw [List.foldl_cons, ih]
      split
      · rename_i h
        have : w ∈ set := by simpa using h
        constructor
        · rintro (h | h)
          · exact Or.inl h
          · exact Or.inr (List.mem_cons_of_mem _ h)
        · rintro (h | h)
          · exact Or.inl h
          · rcases List.mem_cons.1 h with rfl | h
            · exact Or.inl this
            · exact Or.inr h
      · simp [or_assoc]
  unfold stopWordsToSet
  rw [key]
  simp

theorem stemLoop_eq (R : StemRuntime τ) (hR : R.Lawful) (stem : R.Env → Bool × R.Env) (set : List τ) (env : R.Env) (filtered list : List τ) :
    stemLoop R stem set env filtered list =
      filtered ++ (list.filter fun t => t ∉ set).map fun t => R.current (stem (R.newEnv t)).2 := by
  induction list generalizing env filtered with
  | nil => simp [stemLoop]
  | cons t list ih =>
    unfold stemLoop
    by_cases ht : t ∈ set
    · simp [ht, ih]
    · simp only [List.contains_eq_mem, ht, decide_false, Bool.false_eq_true, if_false]
      rw [ih, hR]
      simp [ht]

theorem stemFilter_eq (R : StemRuntime τ) (hR : R.Lawful) (stem : R.Env → Bool × R.Env) (stop : List τ) (empty : τ) (list : List τ) :
    stemFilter R stem stop empty list = (list.filter fun t => t ∉ stop).map fun t => R.current (stem (R.newEnv t)).2 := by
  unfold stemFilter
  rw [stemLoop_eq R hR]
  simp only [List.nil_append]
  congr 1
  refine List.filter_congr fun t _ => ?_
  simp [mem_stopWordsToSet]

/-! Russian: the stem is a beginning of the word. -/

open Snowball Russian

theorem remove_prefix (ends : List (List Char)) (w : List Char) : (remove ends w).getD w <+: w := by
  unfold remove
  cases h : cut ends w with
  | none => exact List.prefix_rfl
  | some x =>
    obtain ⟨r, s⟩ := x
    rw [(cut_some.1 h).1]
    exact List.prefix_append r s

theorem remove_some_prefix {ends : List (List Char)} {w r : List Char} (h : remove ends w = some r) : r <+: w := by
  have := remove_prefix ends w
  rwa [h] at this

theorem removeAfterA_prefix {g1 g2 : List (List Char)} {w r : List Char} (h : removeAfterA g1 g2 w = some r) : r <+: w := by
  unfold removeAfterA at h
  split at h
  · simp at h
  · rename_i r' s hc
    split at h
    · obtain rfl : r' = r := by simpa using h
      rw [(cut_some.1 hc).1]
      exact List.prefix_append _ _
    · simp at h

theorem ru_step1_prefix (w : List Char) : Russian.step1 w <+: w := by
  unfold Russian.step1
  split
  · rename_i r h; exact removeAfterA_prefix h
  · dsimp only
    refine List.IsPrefix.trans ?_ (remove_prefix reflexive w)
    generalize (remove reflexive w).getD w = w
    split
    · rename_i r h
      refine List.IsPrefix.trans ?_ (remove_some_prefix h)
      cases h' : removeAfterA participle1 participle2 r with
      | none => exact List.prefix_rfl
      | some r' => exact removeAfterA_prefix h'
    · split
      · rename_i r h; exact removeAfterA_prefix h
      · exact remove_prefix _ _

theorem ru_step3_prefix (h p2 : Nat) (w : List Char) : Russian.step3 h p2 w <+: w := by
  unfold Russian.step3
  split
  · rename_i r h
    split
    · exact remove_some_prefix h
    · exact List.prefix_rfl
  · exact List.prefix_rfl

theorem undouble_prefix (w : List Char) : undouble w <+: w := by
  unfold undouble
  split
  · exact List.dropLast_prefix w
  · exact List.prefix_rfl

theorem ru_step4_prefix (w : List Char) : Russian.step4 w <+: w := by
  unfold Russian.step4
  split
  · rename_i r h; exact (undouble_prefix r).trans (remove_some_prefix h)
  · split
    · rename_i r h; exact remove_some_prefix h
    · exact undouble_prefix w

theorem ru_stem_prefix (w : List Char) : Russian.stem w <+: noYo w ∧ (splitRV (noYo w)).1 <+: Russian.stem w := by
  unfold Russian.stem
  have h := Ru.splitRV_append (noYo w)
  generalize hs : splitRV (noYo w) = x at h
  obtain ⟨head, rv⟩ := x
  dsimp only
  rw [hs]
  dsimp only at h ⊢
  refine ⟨?_, List.prefix_append _ _⟩
  have hp : Russian.step4 (Russian.step3 head.length (Russian.r2 (noYo w)) (Russian.step2 (Russian.step1 rv))) <+: rv :=
    (ru_step4_prefix _).trans ((ru_step3_prefix _ _ _).trans ((remove_prefix _ _).trans (ru_step1_prefix rv)))
  obtain ⟨t, ht⟩ := hp
  exact ⟨t, by rw [List.append_assoc, ht, h]⟩

/-! English: when the stem is empty. -/

open English

theorem through_pos {p : Char → Bool} {ps : List (Char → Bool)} {w b : List Char} (h : through (p :: ps) w = some b) : 1 ≤ b.length := by
  unfold through at h
  split at h
  · simp at h
  · rename_i a t ha
    rw [Option.map_eq_some_iff] at h
    obtain ⟨c, -, rfl⟩ := h
    have := List.length_pos_iff.2 (after_some ha).2
    simp; omega

theorem r1_pos {w : List Char} (hw : w ≠ []) : 1 ≤ English.r1 w := by
  have := List.length_pos_iff.2 hw
  unfold English.r1
  split
  · rename_i b h
    have h := List.mem_of_find?_eq_some h
    have hall : ∀ b ∈ words ["gener", "commun", "arsen"], 1 ≤ b.length := by decide
    exact hall b h
  · split
    · rename_i b h; exact through_pos h
    · exact this

theorem r2_pos {w : List Char} (hw : w ≠ []) : 1 ≤ English.r2 w := by
  have h1 := r1_pos hw
  have := List.length_pos_iff.2 hw
  unfold English.r2
  split
  · omega
  · exact this

theorem ne_of_le {p : Nat} {r : List Char} (hp : 1 ≤ p) (h : p ≤ r.length) : r ≠ [] := List.length_pos_iff.1 (by omega)

theorem step1b_ne {p1 : Nat} {w : List Char} (hw : w ≠ []) : English.step1b p1 w ≠ [] := by
  unfold English.step1b
  split
  · exact hw
  · rename_i r s h
    split
    · split
      · simp
      · exact hw
    · split
      · rename_i hv
        have hr : r ≠ [] := by rintro rfl; simp at hv
        unfold English.step1bEnd
        split
        · simp
        · split
          · rename_i h2
            obtain ⟨x, hx, hs⟩ := List.any_eq_true.1 h2
            have hall : ∀ x ∈ ["bb", "dd", "ff", "gg", "mm", "nn", "pp", "rr", "tt"], x.toList.length = 2 := by decide
            have h3 := hall x hx
            have := (List.isSuffixOf_iff_suffix.1 hs).length_le
            refine List.length_pos_iff.1 ?_
            rw [List.length_dropLast]; omega
          · split
            · simp
            · exact hr
      · exact hw

theorem step1c_ne {w : List Char} (hw : w ≠ []) : English.step1c w ≠ [] := by
  unfold English.step1c
  split
  · split
    · simp
    · exact hw
  · exact hw

theorem step2_ne {p1 : Nat} (hp : 1 ≤ p1) {w : List Char} (hw : w ≠ []) : English.step2 p1 w ≠ [] := by
  unfold English.step2
  split
  · exact hw
  · split
    · rename_i h
      have := ne_of_le hp h.1
      simp [this]
    · exact hw

theorem step3_ne {p1 p2 : Nat} (hp : 1 ≤ p1) {w : List Char} (hw : w ≠ []) : English.step3 p1 p2 w ≠ [] := by
  unfold English.step3
  split
  · exact hw
  · split
    · rename_i h
      have := ne_of_le hp h.1
      simp [this]
    · exact hw

theorem step4_ne {p2 : Nat} (hp : 1 ≤ p2) {w : List Char} (hw : w ≠ []) : English.step4 p2 w ≠ [] := by
  unfold English.step4
  split
  · exact hw
  · split
    · rename_i h
      exact ne_of_le hp h.1
    · exact hw

theorem step5_ne {p1 p2 : Nat} (hp1 : 1 ≤ p1) (hp2 : 1 ≤ p2) {w : List Char} (hw : w ≠ []) : English.step5 p1 p2 w ≠ [] := by
  unfold English.step5
  split
  · exact hw
  · split
    · split
      · rename_i h
        rcases h with h | h
        · exact ne_of_le hp2 h
        · exact ne_of_le hp1 h.1
      · exact hw
    · split
      · rename_i h
        exact ne_of_le hp2 h.1
      · exact hw

theorem step1a_nil {w : List Char} (hw : w ≠ []) : English.step1a w = [] ↔ w ∈ words ["'", "'s", "'s'"] := by
  unfold English.step1a remove
  constructor
  · intro h
    have hq : ∀ v : List Char, v ≠ [] → (match cut (words ["sses", "ied", "ies", "s", "us", "ss"]) v with
        | none => v
        | some (r, s) =>
          if s = "sses".toList then r ++ "ss".toList
          else if s = "ied".toList ∨ s = "ies".toList then (if 2 ≤ r.length then r ++ "i".toList else r ++ "ie".toList)
          else if s = "s".toList then (if r.dropLast.any English.isVowel then r else v)
          else v) ≠ [] := by
      intro v hv
      split
      · exact hv
      · rename_i r s hc
        split
        · simp
        · split
          · split <;> simp
          · split
            · split
              · rename_i h; rintro rfl; simp at h
              · exact hv
            · exact hv
    cases hc : cut (words ["'", "'s", "'s'"]) w with
    | none => rw [hc] at h; exact absurd h (hq w hw)
    | some x =>
      obtain ⟨r, s⟩ := x
      rw [hc] at h
      have hr : r = [] := by
        by_contra hr
        exact hq r hr h
      obtain ⟨h1, h2, -⟩ := cut_some.1 hc
      rw [h1, hr]; exact h2
  · intro h
    have hall : ∀ w ∈ words ["'", "'s", "'s'"], English.step1a w = [] := by decide
    exact hall w h

theorem markFrom_id {p : Char} {w : List Char} (h : 'Y' ∉ markFrom p w) : markFrom p w = w := by
  induction w generalizing p with
  | nil => rfl
  | cons c w ih =>
    simp only [markFrom] at h ⊢
    split
    · rename_i hc
      rw [if_pos hc] at h
      simp at h
    · rename_i hc
      rw [if_neg hc] at h
      rw [ih (fun h' => h (List.mem_cons_of_mem _ h'))]

theorem markY_id {w : List Char} (h : 'Y' ∉ markY w) : markY w = w := by
  cases w with
  | nil => rfl
  | cons c w =>
    simp only [markY] at h ⊢
    split
    · rename_i hc
      rw [if_pos hc] at h
      simp at h
    · rename_i hc
      rw [if_neg hc] at h
      rw [markFrom_id (fun h' => h (List.mem_cons_of_mem _ h'))]

theorem en_stem_nil (w : List Char) : English.stem w = [] ↔ w ∈ words ["", "''s", "''s'"] := by
  constructor
  · intro h
    cases h1 : exceptions.lookup w with
    | some s =>
      exfalso
      have hk : ∀ x ∈ exceptions, x.2 ≠ [] := by decide
      obtain ⟨l1, l2, h2, -⟩ := List.lookup_eq_some_iff.1 h1
      have := hk (w, s) (by rw [h2]; simp)
      unfold English.stem at h
      rw [h1] at h
      exact this h
    | none =>
      by_cases hl : w.length < 3
      · unfold English.stem at h
        rw [h1] at h
        simp only [hl, if_true] at h
        subst h
        decide
      · rw [En.stem_spec w h1 hl] at h
        dsimp only at h
        have hb : En.back (English.r1 (markY (dropQuote w))) (English.r2 (markY (dropQuote w))) (markY (dropQuote w)) = [] := by
          split at h
          · exact h
          · simpa [unmark] using h
        have hne : markY (dropQuote w) ≠ [] := by
          intro h
          have := congrArg List.length h
          rw [En.markY_length] at this
          have hw : w.length ≤ (dropQuote w).length + 1 := by
            unfold English.dropQuote
            split <;> simp
          simp at this
          rw [this] at hw
          simp at hw; omega
        have hp1 := r1_pos hne
        have hp2 := r2_pos hne
        have hs : English.step1a (markY (dropQuote w)) = [] := by
          by_contra hs
          unfold En.back at hb
          split at hb
          · exact hs hb
          · exact step5_ne hp1 hp2 (step4_ne hp2 (step3_ne hp1 (step2_ne hp1 (step1c_ne (step1b_ne hs))))) hb
        have hm := (step1a_nil hne).1 hs
        have hY : ∀ s ∈ words ["'", "'s", "'s'"], 'Y' ∉ s := by decide
        rw [markY_id (hY _ hm)] at hm
        unfold English.dropQuote at hm
        split at hm
        · rename_i v
          have hall : ∀ s ∈ words ["'", "'s", "'s'"], s.length < 2 ∨ '\'' :: s ∈ words ["", "''s", "''s'"] := by decide
          rcases hall v hm with h | h
          · simp at hl; omega
          · exact h
        · rename_i hno
          exfalso
          have hall : ∀ s ∈ words ["'", "'s", "'s'"], s.head? = some '\'' := by decide
          have := hall w hm
          cases w with
          | nil => simp at this
          | cons c w =>
            obtain rfl : c = '\'' := by simpa using this
            exact hno w rfl
  · intro h
    have hall : ∀ w ∈ words ["", "''s", "''s'"], English.stem w = [] := by decide
    exact hall w h

end Verif.StemF
