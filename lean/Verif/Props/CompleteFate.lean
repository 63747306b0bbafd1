import Verif.Props.ExactSearch
import Verif.Props.OddQuery
/-
C94: every request for completions is answered.
-/
namespace Verif.Props
open Verif Spec Verif.WordSearch Verif.Serve Verif.Wire

section
variable {ρ : Roaring} (L : ρ.Lawful) {G : Gob} (LG : G.Lawful)
  {lower : Nat → Nat} {sort : List Alphabet → List Alphabet} {d : TokenConf} {c : WordConf} (hdc : Describes lower sort d c)
  {words : List (List Char)} (hwords : words.length < 2 ^ 32) (hfaith : ∀ w ∈ words, c.Faithful (c.wordText w))
  (hfirst : ∀ w, words.head? = some w → c.grams (c.wordText w) ≠ [])
  (hn : ∀ w ∈ words, (c.grams (c.wordText w)).length ≤ 65535)
  {oi : OpenIndex} (hoi : WordIndex ρ G lower sort d words oi)
  {msort : List (PList ρ) → List (PList ρ)} (hs : ∀ r, (msort r).Perm r) {query : List Char} {dict : Bytes}
  {dict' query' raw : Bytes} {kvs : List (Bytes × Bytes)} (hd : PctEncoded false dict dict') (hsd : PathSegment dict)
  (hq : PctEncoded false (utf8 query) query') (hsq : PathSegment (utf8 query)) (hform : FormEncoded kvs raw)
  {pf : Bytes → Except Err F64} {numText : ℚ → List Char} (hnum : ∀ x, NumText (numText x)) {F : FloatOps ℚ} {w : World}
  (hpub : w.published dict = some ⟨oi, ramDict (words.map utf8), suggestTokenizer lower sort d, autocompleteTokenizer lower sort d⟩)

include L LG hdc hwords hfaith hfirst hn hoi hs hd hsd hq hsq hform hnum hpub in
/-- **C94** A request "GET /autocomplete/<dictionary>/<prefix>/?topK=…" is always answered, for any prefix that has an n-gram (also with
characters outside the alphabet), whatever the other requests are; it cannot hang, be aborted or end the process. The body is JSON: the
first `limit` words, in the order of the dictionary, that contain all n-grams of the prefix and have at least as many n-grams as the
prefix has before characters outside the alphabet are replaced. -/
theorem C94_complete_fate (hlen : c.n ≤ (c.prefixText query).length)
    (hqn : (Spec.windows c.n (c.prefixText query)).eraseDups.length ≤ 65535) {limit : Nat}
    (hK : (fieldValue kvs "topK".toUTF8.toList = [] ∧ limit = 5) ∨
      (IsDecimal (fieldValue kvs "topK".toUTF8.toList) limit ∧ limit < 2 ^ 63)) :
    let fate := RequestFate F ρ msort pf (fun x => utf8 (numText x)) w .get (searchTarget "autocomplete" dict' query' raw)
    (∃ f, fate f) ∧ ∀ f, fate f → ∃ body, f = .answered (.json body) ∧
      JsonBody body (itemsJson numText (((words.filter fun w => c.matchesPrefix query w &&
        decide ((Spec.windows c.n (c.prefixText query)).eraseDups.length ≤ (c.grams (c.wordText w)).length)).take limit).map fun w => (0, w))) := by
  intro fate
  have hk : autocompleteArgs (formValue raw) = .ok limit := by
    unfold autocompleteArgs
    rw [C88_form hform]
    refine C55_topK.2 ?_
    rcases hK with ⟨h, rfl⟩ | ⟨h, h2⟩
    · exact .inl ⟨h, rfl⟩
    · exact .inr ⟨h, by omega, by exact_mod_cast h2⟩
  obtain ⟨path, p1, p2⟩ := (C88_request hd hsd hq hsq (form_plain hform)).2
  obtain ⟨q, htok, t1, t2, _, r, hr⟩ := C68_any_answers L LG hdc hwords hfaith hfirst hn hoi hs hlen hqn limit
  have hres := C68_any_prefix L LG hdc hwords hfaith hfirst hn hoi hs hlen hqn hr
  constructor
  · rw [hres] at hr
    exact ⟨_, .answered ((answered_complete hd hsd hq hsq hform).2 (.ok hk hpub hr))⟩
  · intro f hf
    cases hf with
    | answered ha =>
      cases (answered_complete hd hsd hq hsq hform).1 ha with
      | bad g => rw [hk] at g; cases g
      | unknown _ g => rw [hpub] at g; cases g
      | failed g1 g3 g4 =>
        rw [hk] at g1; cases g1
        rw [hpub] at g3; cases g3
        cases C68_any_prefix L LG hdc hwords hfaith hfirst hn hoi hs hlen hqn g4
      | ok g1 g3 g4 =>
        rename_i items
        rw [hk] at g1; cases g1
        rw [hpub] at g3; cases g3
        have e := C68_any_prefix L LG hdc hwords hfaith hfirst hn hoi hs hlen hqn g4
        simp only [Except.ok.injEq] at e
        refine ⟨_, rfl, ?_⟩
        have := items_read hnum items
        rw [e, List.map_map] at this
        have e2 : ((fun it : ℚ × Bytes => (it.1, shown it.2)) ∘ fun w => (0, utf8 w)) = fun w : List Char => ((0 : ℚ), w) := by
          funext w
          simp [shown_utf8]
        rw [e2] at this
        rw [e]
        exact this
    | reindexed g1 g2 | suggestToken g1 g2 | suggest g1 g2 | suggestNaN g1 g2 | suggestEndless g1 g2 =>
      rw [p1] at g1; cases g1
      rw [p2] at g2; cases g2
    | completeToken g1 g2 g3 g4 g5 =>
      rw [p1] at g1; cases g1
      rw [p2] at g2; cases g2
      rw [hpub] at g4; cases g4
      dsimp only at g5
      rw [htok] at g5; cases g5
    | complete g1 g2 g3 g4 g5 g6 =>
      rw [p1] at g1; cases g1
      rw [p2] at g2; cases g2
      rw [hk] at g3; cases g3
      rw [hpub] at g4; cases g4
      dsimp only at g5
      rw [htok] at g5; cases g5
      cases g6 with
      | own h => exact absurd (.inl ⟨_, h⟩) t1
      | blocks h => exact absurd h t2
      | worker hr hp => exact absurd (.inr ⟨_, hr, hp⟩) t1

end
/-- **C94** The dictionary is "apple", "Apply", "maple", with trigrams: "GET /autocomplete/fruit/APPL/" is answered with "apple" and
"Apply", and nothing else can happen to it. -/
theorem C94_complete_fate_example : ∃ (G : Gob) (_ : G.Lawful) (w : World), WellBuilt toyRoaring G 2 w ∧
    ∀ (pf : Bytes → Except Err F64) (numText : ℚ → List Char), (∀ x, NumText (numText x)) →
      let fate := RequestFate (f64Ops 0) toyRoaring id pf (fun x => utf8 (numText x)) w .get (utf8 "/autocomplete/fruit/APPL/?topK=9".toList)
      (∃ f, fate f) ∧ ∀ f, fate f → ∃ body, f = .answered (.json body) ∧
        JsonBody body (itemsJson numText [(0, "apple".toList), (0, "Apply".toList)]) := by
  obtain ⟨G, LG, oi, h⟩ := tiny_index
  obtain ⟨w, hwd⟩ : ∃ w : World, w = ⟨fun _ => some ⟨oi, ramDict (tinyWords.map utf8), suggestTokenizer asciiLower id tinyConf,
    autocompleteTokenizer asciiLower id tinyConf⟩, [utf8 "fruit".toList]⟩ := ⟨_, rfl⟩
  have hw : WellBuilt toyRoaring G 2 w := by
    intro dict p hp
    rw [hwd] at hp
    cases hp
    exact ⟨asciiLower, id, tinyConf, wordDocs tinySpec tinyWords, by decide, by decide, by decide +kernel, rfl, rfl,
      wordDocs_good (by decide) (by decide +kernel), wordDocs_first (by decide +kernel), wordIndex_indexOf tiny_describes tiny_faithful h⟩
  have hform : FormEncoded [(utf8 "topK".toList, utf8 "9".toList)] (utf8 "topK=9".toList) := by
    have l : ∀ s : String, (∀ c ∈ utf8 s.toList, Unreserved c) → PctEncoded true (utf8 s.toList) (utf8 s.toList) := fun s h => enc_literal h
    have h := FormEncoded.last (l "topK" (by unfold Unreserved; decide +kernel)) (l "9" (by unfold Unreserved; decide +kernel))
    have e : utf8 "topK=9".toList = utf8 "topK".toList ++ 61 :: utf8 "9".toList := by decide +kernel
    rw [e]
    exact h
  refine ⟨G, LG, w, hw, fun pf numText hnum => ?_⟩
  have e : utf8 "/autocomplete/fruit/APPL/?topK=9".toList =
      searchTarget "autocomplete" (utf8 "fruit".toList) (utf8 "APPL".toList) (utf8 "topK=9".toList) := by decide +kernel
  rw [e]
  have key := C94_complete_fate toyLawful LG tiny_describes (by decide) tiny_faithful (by decide +kernel)
    (by decide +kernel) h (msort := id) (fun _ => .refl _) (query := "APPL".toList) (dict := utf8 "fruit".toList) (w := w) (pf := pf)
    (F := f64Ops 0) (enc_literal (by unfold Unreserved; decide +kernel)) (by unfold PathSegment; decide +kernel)
    (enc_literal (by unfold Unreserved; decide +kernel)) (by unfold PathSegment; decide +kernel) hform hnum (by rw [hwd])
    (by decide +kernel) (by decide +kernel) (limit := 9) (.inr ⟨by
      have e : fieldValue [(utf8 "topK".toList, utf8 "9".toList)] "topK".toUTF8.toList = [57] := by decide +kernel
      rw [e]; exact .inl ⟨by unfold IsDigits; decide, by decide⟩, by decide⟩)
  have e2 : (tinyWords.filter fun w => tinySpec.matchesPrefix "APPL".toList w &&
      decide ((Spec.windows tinySpec.n (tinySpec.prefixText "APPL".toList)).eraseDups.length ≤ (tinySpec.grams (tinySpec.wordText w)).length)).take 9 =
      ["apple".toList, "Apply".toList] := by decide +kernel
  rw [e2] at key
  exact key

end Verif.Props
