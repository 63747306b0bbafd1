import Verif.Props.Memory
import Verif.Props.ServeExamples
/-! C94 on a machine with finite memory: non-vacuity. -/
namespace Verif.Props
open Verif Spec Verif.WordSearch Verif.Wire Verif.Serve Verif.Memory

/-- linux/amd64 with 1 TiB of memory. -/
def bigMachine : Machine := ⟨2 ^ 48, 2 ^ 40⟩

/-- "topK=100000000000" (10^11: 1.6 TB) -/
theorem hugeForm_encoded : FormEncoded [(utf8 "topK".toList, utf8 "100000000000".toList)] (utf8 "topK=100000000000".toList) := by
  have l : ∀ s : String, (∀ c ∈ utf8 s.toList, Unreserved c) → PctEncoded true (utf8 s.toList) (utf8 s.toList) := fun s h => enc_literal h
  have h := FormEncoded.last (l "topK" (by unfold Unreserved; decide +kernel)) (l "100000000000" (by unfold Unreserved; decide +kernel))
  have e : utf8 "topK=100000000000".toList = utf8 "topK".toList ++ 61 :: utf8 "100000000000".toList := by decide +kernel
  rw [e]
  exact h

theorem huge_decimal : IsDecimal (fieldValue [(utf8 "topK".toList, utf8 "100000000000".toList)] "topK".toUTF8.toList) 100000000000 := by
  have e : fieldValue [(utf8 "topK".toList, utf8 "100000000000".toList)] "topK".toUTF8.toList =
      [49, 48, 48, 48, 48, 48, 48, 48, 48, 48, 48, 48] := by decide +kernel
  rw [e]
  exact .inl ⟨by simp [IsDigits], by decide⟩

/-- **C94** The hypotheses of `C94_huge_topK_kills` and of `C94_suggest_memory_partial` are met: three words are published under every
name. On a machine with 1 TiB of memory "GET /autocomplete/fruit/app/?topK=100000000000" has no other outcome than the end of the process;
if no client asks for more than 2^36 results (nor for the list of the dictionaries, nor with more than 65533 bytes), the process runs for
ever. -/
theorem C94_memory_example : ∃ (G : Gob) (_ : G.Lawful) (w : World), WellBuilt toyRoaring G 2 w ∧
    ∀ (pf : Bytes → Except Err F64) (num : ℚ → Bytes),
      (∀ f, (suggestServerOn bigMachine (f64Ops 0) toyRoaring id pf num fun _ w' => w' = w).fate w .get
        (utf8 "/autocomplete/fruit/app/?topK=100000000000".toList) f ↔ f = .fatal) ∧
      ∀ s, Steps (suggestServerOn bigMachine (f64Ops 0) toyRoaring id pf num fun _ w' => w' = w)
        (fun m t => t.length ≤ 65533 ∧ (∀ path raw, parseTarget t = .ok (path, raw) → route m path ≠ .dictList ∧
          ∀ k, formTopK (formValue raw "topK") 5 = .ok k → k ≤ 2 ^ 36)) (Fresh w) s →
        s.up = true ∧ ∀ m t, (m, t, Conn.cut) ∉ s.conns := by
  obtain ⟨G, LG, oi, h⟩ := tiny_index
  obtain ⟨w, hwd⟩ : ∃ w : World, w = ⟨fun _ => some ⟨oi, ramDict (tinyWords.map utf8), suggestTokenizer asciiLower id tinyConf,
    autocompleteTokenizer asciiLower id tinyConf⟩, [utf8 "fruit".toList]⟩ := ⟨_, rfl⟩
  have hw : WellBuilt toyRoaring G 2 w := by
    intro dict p hp
    rw [hwd] at hp
    cases hp
    exact ⟨asciiLower, id, tinyConf, wordDocs tinySpec tinyWords, by decide, by decide, by decide +kernel, rfl, rfl,
      wordDocs_good (by decide) (by decide +kernel), wordDocs_first (by decide +kernel), wordIndex_indexOf tiny_describes tiny_faithful h⟩
  refine ⟨G, LG, w, hw, fun pf num => ⟨?_, fun s hs => ?_⟩⟩
  · have e : utf8 "/autocomplete/fruit/app/?topK=100000000000".toList =
      searchTarget "autocomplete" (utf8 "fruit".toList) (utf8 "app".toList) (utf8 "topK=100000000000".toList) := by decide +kernel
    rw [e]
    obtain ⟨toks, ht, _⟩ := autocompleteTokenizer_length (lower := asciiLower) (sort := id) (d := tinyConf) (by decide) (by decide)
      (utf8 "app".toList)
    exact (C94_huge_topK_kills (M := bigMachine) (k := 100000000000) (client := fun _ _ => True) (s := Fresh w)
      (enc_literal (by unfold Unreserved; decide +kernel)) (by unfold PathSegment; decide +kernel)
      (enc_literal (by unfold Unreserved; decide +kernel)) (by unfold PathSegment; decide +kernel) hugeForm_encoded huge_decimal
      (by norm_num) (by norm_num [bigMachine]) (by norm_num [bigMachine]) trivial rfl
      (p := ⟨oi, ramDict (tinyWords.map utf8), suggestTokenizer asciiLower id tinyConf, autocompleteTokenizer asciiLower id tinyConf⟩)
      (by show w.published _ = _; rw [hwd]) ht).1
  · refine C94_suggest_memory_partial toyLawful LG (fun _ => .refl _) (wraps := 2) (M := bigMachine) (fun _ w' e => by subst e; exact hw)
      (fun m t hc => by have := hc.1; omega) (.inl fun t hc path raw hp => (hc.2 path raw hp).1) (fun m t hc path raw k hp hk => ?_) hw hs
    have := (hc.2 path raw hp).2 k hk
    left
    show 16 * k ≤ ((2 ^ 40 : Nat) : Int)
    push_cast
    omega

/-- Non-vacuity of `C94_predict_huge_topK_kills` and `C94_predict_memory_partial`, for the example spell checker of C65. -/
example : ∃ sc : SpellChecker, ∀ (val : LMScore → ℝ) (pf : Bytes → Except Err F64),
    (∀ f, (spellServerOn bigMachine (realOps 0) (fun x => (x : ℝ)) val sc pf).fate () .get
      (utf8 "/predict/%09/?topK=100000000000".toList) f ↔ f = .fatal) ∧
    ∀ s, Steps (spellServerOn bigMachine (realOps 0) (fun x => (x : ℝ)) val sc pf)
      (fun _ t => ∀ path raw, parseTarget t = .ok (path, raw) → ∀ k, formTopK (formValue raw "topK") 5 = .ok k → 1 ≤ k ∧ k ≤ 2 ^ 36) (Fresh ()) s →
        s.up = true ∧ ∀ m t, (m, t, Conn.cut) ∉ s.conns := by
  obtain ⟨mk, h⟩ := exampleChecker_ok
  obtain ⟨hi, hm, hpg, hg, ht, hd, hα, _⟩ := h fun i => [UInt8.ofNat i]
  refine ⟨mk fun i => [UInt8.ofNat i], fun val pf => ⟨?_, fun s hs => ?_⟩⟩
  · have e : utf8 "/predict/%09/?topK=100000000000".toList = predictTarget (utf8 "%09".toList) (utf8 "topK=100000000000".toList) := by
      decide +kernel
    rw [e]
    have hq : PctEncoded false [9] (utf8 "%09".toList) := by
      have : PctEncoded false [9] (37 :: 48 :: 57 :: []) :=
        .pct (x := 0) (y := 9) (.inl ⟨by decide, by decide⟩) (.inl ⟨by decide, by decide⟩) (by decide) .nil
      have e : utf8 "%09".toList = [37, 48, 57] := by decide +kernel
      rw [e]; exact this
    exact (C94_predict_huge_topK_kills (M := bigMachine) (k := 100000000000) (client := fun _ _ => True) (s := Fresh ()) hm hq
      (by unfold PathSegment; decide) hugeForm_encoded huge_decimal (by norm_num) (by decide +kernel) (by rw [ht]; simp)
      (by norm_num [bigMachine]) (by norm_num [bigMachine]) trivial rfl).1
  · obtain ⟨L⟩ := (hi []).lawful
    obtain ⟨G, LG, hoi⟩ := (hi []).index
    refine C94_predict_memory_partial L LG (hi []).good (hi []).first hoi (hi []).sort hm
      (fun m t hc path raw query h1 h2 => ⟨fun x hx => ?_, fun w hw =>
        ⟨((hi query).prefixGrams w hw).2, ((hi query).grams w hw).2⟩⟩) (fun m t hc path raw k h1 hk => ?_) hs
    · have := (hc path raw h1 0 (args_form hx)).1
      omega
    · have := (hc path raw h1 k hk).2
      left
      show 16 * k ≤ ((2 ^ 40 : Nat) : Int)
      push_cast
      omega

end Verif.Props
