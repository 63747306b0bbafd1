import Verif.Model.StemmerFilters
import Verif.Proofs.StemmerFilter
/-!
Property theorems C80, C81, C82: the stemmer filters (pkg/analysis/stemmer_filter.go) and the generated stemmers for Russian and
English (pkg/analysis/ru/algorithm.go, pkg/analysis/en/algorithm.go).

`Stemming.Russian.stem`, `Stemming.English.stem` — the published algorithms, Verif/Spec/Stemming.lean, Verif/Spec/EnglishStemming.lean.
`rounds` is a bound on the rounds of the loops of the generated code: the theorems hold for every bound from some number on, that
is, for the loops of the code, which end.
-/
namespace Verif.Props
open Verif Stemming

/-- **C80**: a filter returns the stems of the tokens that are not stop words, in the order of the tokens — for every stemmer, every
list of stop words, every library that keeps its contract, although one environment is used for all tokens. -/
theorem C80_filter {τ : Type} [DecidableEq τ] (R : StemRuntime τ) (hR : R.Lawful) (stem : R.Env → Bool × R.Env) (stop : List τ) (empty : τ)
    (list : List τ) : stemFilter R stem stop empty list =
      (list.filter fun t => t ∉ stop).map fun t => R.current (stem (R.newEnv t)).2 :=
  StemF.stemFilter_eq R hR stem stop empty list

/-- **C80**: what becomes of a token does not depend on the tokens before and behind it. -/
theorem C80_append {τ : Type} [DecidableEq τ] (R : StemRuntime τ) (hR : R.Lawful) (stem : R.Env → Bool × R.Env) (stop : List τ) (empty : τ)
    (l1 l2 : List τ) : stemFilter R stem stop empty (l1 ++ l2) =
      stemFilter R stem stop empty l1 ++ stemFilter R stem stop empty l2 := by
  simp [C80_filter R hR]

/-- The environment of the library keeps the contract. -/
theorem snowball_lawful : snowballRuntime.Lawful := fun _ _ => rfl

/-- Without the contract the filter may mix tokens: a library whose `SetCurrent` appends. -/
example : stemFilter (⟨List Nat, id, fun e t => e ++ t, id⟩ : StemRuntime (List Nat)) (fun e => (true, e)) [] [] [[1], [2]] = [[1], [1, 2]] := by
  decide

/-- **C80**, English: the Porter2 stems of the tokens that are not on the list, in order. -/
theorem C80_english (list : List (List Char)) (rounds : Nat) (hr : ∀ t ∈ list, t.length < rounds) :
    enFilter rounds list = (list.filter fun t => t ∉ enStopWords).map English.stem := by
  refine (C80_filter snowballRuntime snowball_lawful (enStem rounds) enStopWords [] list).trans ?_
  have hf : ∀ (f g : List Char → List Char) (d1 d2 : ∀ t : List Char, Decidable (t ∉ enStopWords)), (∀ t ∈ list, f t = g t) →
      (list.filter fun t => @decide _ (d1 t)).map f = (list.filter fun t => @decide _ (d2 t)).map g := by
    intro f g d1 d2 h
    rw [List.filter_congr (fun t _ => by congr : ∀ t ∈ list, @decide _ (d1 t) = @decide _ (d2 t))]
    exact List.map_congr_left fun t ht => h t (List.mem_filter.1 ht).1
  refine hf _ _ _ _ fun t ht => ?_
  obtain ⟨e, h1, h2⟩ := En.stem_eq t rounds (hr t ht)
  show (enStem rounds (Snowball.newEnv t)).2.current = _
  unfold enStem
  rw [h1]
  exact h2

/-- **C80**, Russian. -/
theorem C80_russian (list : List (List Char)) (rounds : Nat) (hr : ∀ t ∈ list, t.length < rounds) :
    ruFilter rounds list = (list.filter fun t => t ∉ ruStopWords).map Russian.stem := by
  refine (C80_filter snowballRuntime snowball_lawful (ruStem rounds) ruStopWords [] list).trans ?_
  have hf : ∀ (f g : List Char → List Char) (d1 d2 : ∀ t : List Char, Decidable (t ∉ ruStopWords)), (∀ t ∈ list, f t = g t) →
      (list.filter fun t => @decide _ (d1 t)).map f = (list.filter fun t => @decide _ (d2 t)).map g := by
    intro f g d1 d2 h
    rw [List.filter_congr (fun t _ => by congr : ∀ t ∈ list, @decide _ (d1 t) = @decide _ (d2 t))]
    exact List.map_congr_left fun t ht => h t (List.mem_filter.1 ht).1
  refine hf _ _ _ _ fun t ht => ?_
  have hc : t.count 'ё' < rounds := Nat.lt_of_le_of_lt List.count_le_length (hr t ht)
  obtain ⟨e, h1, h2⟩ := Ru.stem_eq t rounds hc
  show (ruStem rounds (Snowball.newEnv t)).2.current = _
  unfold ruStem
  rw [h1]
  exact h2

/-- The sentences of the test cases of the project. -/
example : ruFilter 20 (words ["вместе", "с", "тем", "о", "силе", "электромагнитной", "энергии", "имели", "представление", "еще"]) =
    words ["вмест", "сил", "электромагнитн", "энерг", "имел", "представлен"] := by
  rw [C80_russian _ _ (by decide)]; decide +kernel

example : enFilter 20 (words ["the", "generalization", "of", "national", "theories"]) = words ["general", "nation", "theori"] := by
  rw [C80_english _ _ (by decide)]; decide +kernel

/-- **C80**, what a user may not expect: tokens are compared with the stop words as they are, before stemming. So a stop word in
capitals, in quotes or written with `ё` passes, and the result may contain a stop word. -/
theorem C80_stop_words_pass :
    enFilter 20 (words ["The", "'the"]) = words ["The", "the"] ∧ "the".toList ∈ enStopWords ∧
    ruFilter 20 (words ["ещё"]) = words ["ещ"] ∧ ruFilter 20 (words ["еще"]) = [] := by
  rw [C80_english _ _ (by decide), C80_russian _ _ (by decide), C80_russian _ _ (by decide)]
  decide +kernel

/-- **C81**: the stemmer for Russian ends on every word with the stem of the published algorithm. -/
theorem C81_russian (w : List Char) (rounds : Nat) (hr : w.count 'ё' < rounds) :
    ∃ e, Ru.stem rounds (Snowball.newEnv w) = some (true, e) ∧ e.current = Russian.stem w := Ru.stem_eq w rounds hr

/-- **C81**: the stem is a beginning of the word (with `е` for `ё`) … -/
theorem C81_prefix (w : List Char) : Russian.stem w <+: Russian.noYo w := (StemF.ru_stem_prefix w).1

/-- **C81**: … that contains everything up to the first vowel. -/
theorem C81_through_first_vowel (w a b : List Char) (v : Char) (hw : Russian.noYo w = a ++ v :: b) (ha : ∀ c ∈ a, Russian.isVowel c = false)
    (hv : Russian.isVowel v = true) : a ++ [v] <+: Russian.stem w := by
  have h := (StemF.ru_stem_prefix w).2
  have key : ∀ (a : List Char), (∀ c ∈ a, Russian.isVowel c = false) → after Russian.isVowel (a ++ v :: b) = some (a ++ [v], b) := by
    intro a
    induction a with
    | nil => intro _; simp [after, hv]
    | cons c a ih =>
      intro ha
      have := ih (fun d hd => ha d (List.mem_cons_of_mem _ hd))
      simp [after, ha c (by simp), this]
  have : (Russian.splitRV (Russian.noYo w)).1 = a ++ [v] := by
    unfold Russian.splitRV
    rw [hw, key a ha]
    rfl
  rwa [this] at h

/-- **C81**: a word without a (Russian, small) vowel is its own stem. -/
theorem C81_no_vowel (w : List Char) (h : ∀ c ∈ Russian.noYo w, Russian.isVowel c = false) : Russian.stem w = Russian.noYo w := by
  have key : ∀ (a : List Char), (∀ c ∈ a, Russian.isVowel c = false) → after Russian.isVowel a = none := by
    intro a
    induction a with
    | nil => intro _; rfl
    | cons c a ih =>
      intro ha
      have := ih (fun d hd => ha d (List.mem_cons_of_mem _ hd))
      simp [after, ha c (by simp), this]
  have h2 := (StemF.ru_stem_prefix w).2
  have : (Russian.splitRV (Russian.noYo w)).1 = Russian.noYo w := by
    unfold Russian.splitRV
    rw [key _ h]
    rfl
  rw [this] at h2
  exact (C81_prefix w).eq_of_length (Nat.le_antisymm (C81_prefix w).length_le h2.length_le)

/-- **C81**: no word becomes empty. -/
theorem C81_not_empty (w : List Char) (hw : w ≠ []) : Russian.stem w ≠ [] := by
  intro h
  have h2 := (StemF.ru_stem_prefix w).2
  rw [h, List.prefix_nil] at h2
  have hn : Russian.noYo w ≠ [] := by simpa [Russian.noYo] using hw
  unfold Russian.splitRV at h2
  cases ha : after Russian.isVowel (Russian.noYo w) with
  | none => rw [ha] at h2; exact hn h2
  | some x => rw [ha] at h2; exact (Snowball.after_some ha).2 h2

/-- **C81**: the tables of the generated code are what the binary search of the library needs: sorted by bytes from the end, each entry
linked to the longest entry that is an ending of it. -/
theorem C81_tables : ∀ t ∈ [Ru.A0, Ru.A1, Ru.A2, Ru.A3, Ru.A4, Ru.A5, Ru.A6, Ru.A7], Snowball.amongOk true t = true := by
  decide +kernel

example : Russian.stem "противоестественном".toList = "противоестествен".toList := by decide +kernel
example : Russian.stem "ёлкой".toList = "елк".toList := by decide +kernel

/-- **C82**: the stemmer for English ends on every word with the stem of the published algorithm. -/
theorem C82_english (w : List Char) (rounds : Nat) (hr : w.length < rounds) :
    ∃ e, En.stem rounds (Snowball.newEnv w) = some e ∧ e.current = English.stem w := En.stem_eq w rounds hr

/-- **C82**: a stem is not longer than the word. -/
theorem C82_not_longer (w : List Char) : (English.stem w).length ≤ w.length := En.stem_length w

/-- **C82**, "no word becomes empty" is false, for exactly two words: `''s` and `''s'`. -/
theorem C82_empty_iff (w : List Char) : English.stem w = [] ↔ w = [] ∨ w = "''s".toList ∨ w = "''s'".toList := by
  rw [StemF.en_stem_nil]
  show w ∈ ["".toList, "''s".toList, "''s'".toList] ↔ _
  simp

/-- **C82**: so no word without an apostrophe becomes empty. -/
theorem C82_not_empty (w : List Char) (hw : w ≠ []) (hq : '\'' ∉ w) : English.stem w ≠ [] := by
  intro h
  rcases (C82_empty_iff w).1 h with h | h | h
  · exact hw h
  · exact hq (by rw [h]; decide)
  · exact hq (by rw [h]; decide)

/-- **C82**: the filter can return an empty token. -/
theorem C82_empty_token : enFilter 20 (words ["''s"]) = [[]] := by
  rw [C80_english _ _ (by decide)]; decide +kernel

/-- **C82**: the tables of the generated code are what the binary search of the library needs. -/
theorem C82_tables : (∀ t ∈ [En.A1, En.A2, En.A3, En.A4, En.A5, En.A6, En.A7, En.A8, En.A9], Snowball.amongOk true t = true) ∧
    Snowball.amongOk false En.A0 = true ∧ Snowball.amongOk false En.A10 = true := by
  decide +kernel

example : English.stem "generously".toList = "generous".toList := by decide +kernel
example : English.stem "yellowing".toList = "yellow".toList := by decide +kernel

end Verif.Props
