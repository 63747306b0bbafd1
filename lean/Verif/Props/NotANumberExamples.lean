import Verif.Props.NotANumber
import Verif.Props.ServeExamples
/-! C94: a concrete request with the similarity NaN. -/
namespace Verif.Props
open Verif Spec Verif.WordSearch Verif.Wire Verif.Serve

/-- "metric=Cosine&similarity=NaN" -/
def nanForm : List (Bytes × Bytes) := [(utf8 "metric".toList, utf8 "Cosine".toList), (utf8 "similarity".toList, utf8 "NaN".toList)]

theorem nanForm_encoded : FormEncoded nanForm (utf8 "metric=Cosine&similarity=NaN".toList) := by
  have l : ∀ s : String, (∀ c ∈ utf8 s.toList, Unreserved c) → PctEncoded true (utf8 s.toList) (utf8 s.toList) := fun s h => enc_literal h
  have h1 := FormEncoded.last (l "similarity" (by unfold Unreserved; decide +kernel)) (l "NaN" (by unfold Unreserved; decide +kernel))
  have h := FormEncoded.cons (l "metric" (by unfold Unreserved; decide +kernel)) (l "Cosine" (by unfold Unreserved; decide +kernel)) h1
  have e : utf8 "metric=Cosine&similarity=NaN".toList = utf8 "metric".toList ++ 61 :: utf8 "Cosine".toList ++ 38 ::
    (utf8 "similarity".toList ++ 61 :: utf8 "NaN".toList) := by decide +kernel
  rw [e]
  exact h

/-- `strconv.ParseFloat` of "NaN" (and nothing else). -/
def onlyNaN (s : Bytes) : Except Err F64 := if s = utf8 "NaN".toList then .ok .nan else .error (.other "invalid syntax")

/-- **C94** The hypotheses of `C94_nan_hangs` are met: the dictionary "fruit" with the words "apple", "Apply", "maple" is published; the
request "GET /suggest/fruit/apple/?metric=Cosine&similarity=NaN" is accepted and is never answered. -/
theorem C94_nan_example : ∃ (G : Gob) (_ : G.Lawful) (w : World),
    WellBuilt toyRoaring G 2 w ∧
    ∀ (num : ℚ → Bytes) (reload : World → World → Prop) (client : Method → Bytes → Prop),
      client .get (utf8 "/suggest/fruit/apple/?metric=Cosine&similarity=NaN".toList) →
      ∃ (s : State World) (i : Nat), Steps (suggestServer (f64Ops (-2 ^ 63)) toyRoaring id onlyNaN num reload) client (Fresh w) s ∧ s.up = true ∧
        ∀ s', Steps (suggestServer (f64Ops (-2 ^ 63)) toyRoaring id onlyNaN num reload) client s s' →
          ∃ c : Conn World, s'.conns[i]? = some (Method.get, utf8 "/suggest/fruit/apple/?metric=Cosine&similarity=NaN".toList, c) ∧
            (c = .working w ∨ c = .stuck ∨ c = .cut) := by
  obtain ⟨G, LG, oi, h⟩ := tiny_index
  refine ⟨G, LG, ⟨fun _ => some ⟨oi, ramDict (tinyWords.map utf8), suggestTokenizer asciiLower id tinyConf,
    autocompleteTokenizer asciiLower id tinyConf⟩, [utf8 "fruit".toList]⟩, ?_, ?_⟩
  · intro dict p hp
    cases hp
    exact ⟨asciiLower, id, tinyConf, wordDocs tinySpec tinyWords, by decide, by decide, by decide +kernel, rfl, rfl,
      wordDocs_good (by decide) (by decide +kernel), wordDocs_first (by decide +kernel), wordIndex_indexOf tiny_describes tiny_faithful h⟩
  · intro num reload client hc
    have e : utf8 "/suggest/fruit/apple/?metric=Cosine&similarity=NaN".toList =
      searchTarget "suggest" (utf8 "fruit".toList) (utf8 "apple".toList) (utf8 "metric=Cosine&similarity=NaN".toList) := by decide +kernel
    rw [e] at hc ⊢
    obtain ⟨s1, hs1, e1, e2, e3, _⟩ := begun (K := suggestServer (f64Ops (-2 ^ 63)) toyRoaring id onlyNaN num reload) (client := client)
      (s := Fresh (⟨fun _ => some ⟨oi, ramDict (tinyWords.map utf8), suggestTokenizer asciiLower id tinyConf,
        autocompleteTokenizer asciiLower id tinyConf⟩, [utf8 "fruit".toList]⟩ : World)) rfl hc
    refine ⟨s1, 0, hs1, e2, fun s' hs' => ?_⟩
    have htok := suggestTokens_any tiny_describes (w := "apple".toList) (by decide +kernel)
    refine (C94_nan_hangs (F := f64Ops (-2 ^ 63)) rfl (dict := utf8 "fruit".toList) (query := utf8 "apple".toList)
      (enc_literal (by unfold Unreserved; decide +kernel)) (by unfold PathSegment; decide +kernel)
      (enc_literal (by unfold Unreserved; decide +kernel)) (by unfold PathSegment; decide +kernel) nanForm_encoded
      (by decide +kernel) (by decide +kernel) (by decide +kernel) (by
        have e : fieldValue nanForm "similarity".toUTF8.toList = utf8 "NaN".toList := by decide +kernel
        rw [e]; exact if_pos rfl) rfl htok (by decide) e1 hs').2

/-- Non-vacuity of `C94_predict_nan_hangs`, for the example spell checker of C65: "GET /predict/%09/?similarity=NaN". -/
example : ∃ sc : SpellChecker, ∀ (val : LMScore → ℝ) (client : Method → Bytes → Prop),
    client .get (utf8 "/predict/%09/?similarity=NaN".toList) →
      ∃ (s : State Unit) (i : Nat), Steps (spellServer (realOps (-2 ^ 63)) (fun x => (x : ℝ)) val sc onlyNaN) client (Fresh ()) s ∧
        s.up = true ∧ ∀ s', Steps (spellServer (realOps (-2 ^ 63)) (fun x => (x : ℝ)) val sc onlyNaN) client s s' →
          ∃ c : Conn Unit, s'.conns[i]? = some (Method.get, utf8 "/predict/%09/?similarity=NaN".toList, c) ∧
            (c = .working () ∨ c = .stuck ∨ c = .cut) := by
  obtain ⟨mk, h⟩ := exampleChecker_ok
  obtain ⟨hi, hm, hpg, hg, ht, hd, hα, _⟩ := h fun i => [UInt8.ofNat i]
  have hg9 : (mk fun i => [UInt8.ofNat i]).prefixGrams [9] = ["b"] := by rw [hpg]; decide
  refine ⟨mk fun i => [UInt8.ofNat i], fun val client hc => ?_⟩
  have e : utf8 "/predict/%09/?similarity=NaN".toList = predictTarget (utf8 "%09".toList) (utf8 "similarity=NaN".toList) := by decide +kernel
  rw [e] at hc ⊢
  have hq : PctEncoded false [9] (utf8 "%09".toList) := by
    have : PctEncoded false [9] (37 :: 48 :: 57 :: []) :=
      .pct (x := 0) (y := 9) (.inl ⟨by decide, by decide⟩) (.inl ⟨by decide, by decide⟩) (by decide) .nil
    have e : utf8 "%09".toList = [37, 48, 57] := by decide +kernel
    rw [e]; exact this
  have l : ∀ s : String, (∀ c ∈ utf8 s.toList, Unreserved c) → PctEncoded true (utf8 s.toList) (utf8 s.toList) := fun s h => enc_literal h
  have hform : FormEncoded [(utf8 "similarity".toList, utf8 "NaN".toList)] (utf8 "similarity=NaN".toList) := by
    have h := FormEncoded.last (l "similarity" (by unfold Unreserved; decide +kernel)) (l "NaN" (by unfold Unreserved; decide +kernel))
    have e : utf8 "similarity=NaN".toList = utf8 "similarity".toList ++ 61 :: utf8 "NaN".toList := by decide +kernel
    rw [e]
    exact h
  obtain ⟨s1, hs1, e1, e2, e3, _⟩ := begun (K := spellServer (realOps (-2 ^ 63)) (fun x => (x : ℝ)) val (mk fun i => [UInt8.ofNat i]) onlyNaN)
    (client := client) (s := Fresh ()) rfl hc
  refine ⟨s1, 0, hs1, e2, fun s' hs' => ?_⟩
  refine (C94_predict_nan_hangs (F := realOps (-2 ^ 63)) (real := fun x => (x : ℝ)) rfl (hi [9]) hm hq (by unfold PathSegment; decide) hform
    (by decide +kernel) (by decide +kernel) (by
      have e : fieldValue [(utf8 "similarity".toList, utf8 "NaN".toList)] "similarity".toUTF8.toList = utf8 "NaN".toList := by decide +kernel
      rw [e]; exact if_pos rfl) (seq := []) (word := [9]) (by rw [ht]; rfl) (by rw [hg]; decide) (by rw [hg9]; decide) e1 hs').2

end Verif.Props
