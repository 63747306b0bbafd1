import Verif.Props.PredictFate
/-
C65, C94: queries to the spell checker without words, and with a last word without n-grams.
-/
namespace Verif.Props
open Verif Spec Verif.Serve Verif.Wire

section
variable {S : Type} [LinearOrder S] [Inhabited S] {F : FloatOps S} {val : LMScore → S} {sc : SpellChecker} {query : Bytes} {K : Int} {α : S}

/-- **C65** boundary: a query without words (for example ".") always returns, the empty list, whatever the spell checker, `topK` (also 0 or
negative) and the similarity are. -/
theorem C65_no_words (ht : sc.tokenize query = []) :
    (∀ r, PredictReturns F val sc query K α r ↔ r = .ok []) ∧ ¬ PredictPanics F val sc query K α ∧
    ¬ PredictBlocks F val sc query K α ∧ ¬ PredictRunsForever F val sc query K α := by
  have no : ∀ {seq : List Bytes} {word : Bytes}, sc.tokenize query ≠ seq ++ [word] := by
    intro seq word h
    rw [ht] at h
    simp at h
  refine ⟨fun r => ⟨fun h => ?_, ?_⟩, fun h => ?_, fun h => ?_, fun h => ?_⟩
  · cases h with
    | noTokens => rfl
    | scorerErr h | autoErr h | enough h | fuzzyErr h | fuzzy h => exact absurd h no
  · rintro rfl
    exact .noTokens ht
  · cases h with
    | auto h | fuzzy h => exact absurd h no
  · cases h with
    | auto h | fuzzy h => exact absurd h no
  · cases h with
    | auto h | fuzzy h => exact absurd h no

variable {real : ℚ → S} {pf : Bytes → Except Err F64} {query' raw : Bytes} {kvs : List (Bytes × Bytes)}
  (hq : PctEncoded false query query') (hsq : PathSegment query) (hform : FormEncoded kvs raw)

include hq hsq hform in
/-- **C94** A request "GET /predict/<query>/?…" for such a query, with parameters that the handler accepts (topK=0 and similarity=NaN are
among them), is always answered, with the empty JSON list. -/
theorem C94_predict_no_words (ht : sc.tokenize query = []) (hargs : ∃ args, predictArgs pf (formValue raw) = .ok args) (f : Fate) :
    SpellFate F real val sc pf .get (predictTarget query' raw) f ↔ f = .answered (.json "[]".toUTF8.toList) := by
  have hj : jsonWords [] = "[]".toUTF8.toList := by
    have : "[]".toUTF8.toList = [91, 93] := by decide +kernel
    rw [this]
    rfl
  have no : ∀ {seq : List Bytes} {word : Bytes}, sc.tokenize query ≠ seq ++ [word] := by
    intro seq word h
    rw [ht] at h
    simp at h
  obtain ⟨⟨K, x⟩, hargs⟩ := hargs
  obtain ⟨path, g1, g2⟩ := C90_request hq hsq (form_plain hform)
  have hx : x = .nan ∨ ∃ y, x = .num y := by
    unfold predictArgs at hargs
    split at hargs
    · cases hargs
    · split at hargs
      · cases hargs
      · rename_i hs
        cases hargs
        rcases C55_similarity.1 hs with ⟨_, rfl⟩ | ⟨_, _, rfl | ⟨y, rfl, _⟩⟩
        · exact .inr ⟨_, rfl⟩
        · exact .inl rfl
        · exact .inr ⟨_, rfl⟩
  constructor
  · intro h
    cases h with
    | answered ha =>
      obtain ⟨resp, hr, rfl⟩ := (answered_predict hq hsq hform).1 ha
      cases hr with
      | bad g => rw [hargs] at g; cases g
      | failed _ h => cases ((C65_no_words ht).1 _).1 h
      | ok _ h => cases ((C65_no_words ht).1 _).1 h; rw [← hj]; rfl
      | failedNaN _ h => cases ((C65_no_words ht).1 _).1 h.1
      | okNaN _ h => cases ((C65_no_words ht).1 _).1 h.1; rw [← hj]; rfl
    | predict e1 e2 e3 e4 =>
      rw [g1] at e1; cases e1
      rw [g2] at e2; cases e2
      cases e4 with
      | auto h | fuzzy h => exact absurd h no
      | finish h => cases ((C65_no_words ht).1 _).1 h
    | predictNaN e1 e2 e3 e4 =>
      rw [g1] at e1; cases e1
      rw [g2] at e2; cases e2
      cases e4 with
      | auto h | fuzzy h | endless h => exact absurd h no
      | finish h => cases ((C65_no_words ht).1 _).1 h.1
  · rintro rfl
    rw [← hj]
    rcases hx with rfl | ⟨x, rfl⟩
    rotate_left
    · exact .answered ((answered_predict hq hsq hform).2 ⟨.json [], .ok hargs (((C65_no_words ht).1 _).2 rfl), rfl⟩)
    · refine .answered ((answered_predict hq hsq hform).2 ⟨.json [], .okNaN hargs ⟨((C65_no_words ht).1 _).2 rfl, ?_⟩, rfl⟩)
      intro seq word h
      exact absurd h no

end

section
variable {S : Type} [LinearOrder S] [Inhabited S] {F : FloatOps S} {val : LMScore → S} {sc : SpellChecker} {docs : List Doc} {query : Bytes}
  (hi : SpellIndex sc docs query) {K : Nat} {α : S} {files : List (List (List Nat × Nat))} {id : Bytes → Nat} {start : Nat}
  (hm : SpellModel sc files id start)

theorem empty_suggest {oi : OpenIndex} {ρ : Roaring} {sort : List (PList ρ) → List (PList ρ)} {M : Metric S} {K : Int} :
    (∀ r, SuggestReturns (suggestCall F M ρ sort oi [] α K) r ↔ r = .ok []) ∧
    ¬ SuggestBlocks (suggestCall F M ρ sort oi [] α K) ∧ ¬ SuggestPanics (suggestCall F M ρ sort oi [] α K) := by
  refine ⟨fun r => ⟨fun h => ?_, ?_⟩, fun h => h.1 rfl, fun h => ?_⟩
  · cases h with
    | empty => rfl
    | run h => exact absurd rfl h
  · rintro rfl; exact .empty rfl
  · cases h with
    | start h | run h => exact h rfl

include hi hm in
/-- **C65** boundary: if the last word of the query has no n-gram (it is too short), `Predict` always returns, whatever the similarity is
and however short the indexed words are; only completions of the word are offered. -/
theorem C65_short_word (hK : 0 < K) {seq : List Bytes} {word : Bytes} (ht : sc.tokenize query = seq ++ [word])
    (hg : sc.grams word = []) :
    (∃ r, PredictReturns F val sc query K α r) ∧ ¬ PredictPanics F val sc query K α ∧
    ¬ PredictBlocks F val sc query K α ∧ ¬ PredictRunsForever F val sc query K α ∧
    ∃ score : Nat → S, ∀ r, PredictReturns F val sc query K α r →
      r = .ok (((byScore score (completions docs (sc.prefixGrams word) score K)).take (K + 1)).map sc.dict) := by
  obtain ⟨next, score, hn, hsc⟩ := spell_score_exists hi hm val seq
  obtain ⟨e1, e2, e3⟩ := empty_suggest (F := F) (α := α) (oi := sc.index) (ρ := sc.ρ) (sort := sc.sort) (M := cosineMetric F) (K := (K : Int))
  obtain ⟨p1, p2, p3, p4, _⟩ := predict_fates_of (R := True) (B := False) (P := False) (F := F) (val := val) (α := α) hi hK ht hn hsc
    (by rw [hg]; exact iff_of_true ⟨_, (e1 _).2 rfl⟩ trivial) (by rw [hg]; exact iff_of_false e2 (fun h => h)) (by rw [hg]; exact iff_of_false e3 (fun h => h))
  refine ⟨p1.2 (.inr trivial), fun h => (p3.1 h).2, fun h => (p2.1 h).2, p4, score, fun r hr => ?_⟩
  obtain ⟨cons, rfl, h⟩ := predict_returns hi hsc hK ht hn (P := fun fs => fs = []) (by rintro _ rfl; simp) (fun {r} h => by
    rw [hg] at h
    exact ⟨[], (e1 _).1 h, rfl⟩) hr
  rcases h with ⟨_, rfl⟩ | ⟨_, fs, rfl, rfl⟩
  · rfl
  · simp

end

section
variable {S : Type} [LinearOrder S] [Inhabited S] {F : FloatOps S} {val : LMScore → S} {sc : SpellChecker} {docs : List Doc} {query : Bytes}
  (hi : SpellIndex sc docs query) {K : Nat} {files : List (List (List Nat × Nat))} {id : Bytes → Nat} {start : Nat}
  (hm : SpellModel sc files id start) {real : ℚ → S} {pf : Bytes → Except Err F64} {query' raw : Bytes} {kvs : List (Bytes × Bytes)} {x : ℚ}
  (hq : PctEncoded false query query') (hsq : PathSegment query) (hform : FormEncoded kvs raw)

include hi hm hq hsq hform in
/-- **C94** A request "GET /predict/<query>/?topK=…&similarity=…" whose last word is too short to have an n-gram is always answered, with
at most topK + 1 completions of that word, the best ones first; always with the same words. -/
theorem C94_predict_short_word (hK : 0 < K) (hargs : predictArgs pf (formValue raw) = .ok ((K : Int), .num x))
    {seq : List Bytes} {word : Bytes} (ht : sc.tokenize query = seq ++ [word]) (hg : sc.grams word = []) :
    ∃ score : Nat → S, ∀ f, SpellFate F real val sc pf .get (predictTarget query' raw) f ↔
      f = .answered (.json (jsonWords
        (((byScore score (completions docs (sc.prefixGrams word) score K)).take (K + 1)).map sc.dict))) := by
  obtain ⟨⟨r0, hr0⟩, nP, nB, -, score, hret⟩ := C65_short_word (F := F) (val := val) (α := real x) hi hm hK ht hg
  obtain ⟨path, g1, g2⟩ := C90_request hq hsq (form_plain hform)
  refine ⟨score, fun f => ⟨fun h => ?_, ?_⟩⟩
  · cases h with
    | answered ha =>
      obtain ⟨resp, hr, rfl⟩ := (answered_predict hq hsq hform).1 ha
      cases hr with
      | bad g | failedNaN g | okNaN g => rw [hargs] at g; cases g
      | failed g h => rw [hargs] at g; cases g; cases hret _ h
      | ok g h => rw [hargs] at g; cases g; cases hret _ h; rfl
    | predict e1 e2 e3 e4 =>
      exfalso
      rw [g1] at e1; cases e1
      rw [g2] at e2; cases e2
      rw [hargs] at e3; cases e3
      cases e4 with
      | auto h1 h2 h3 =>
        cases h3 with
        | own he =>
          obtain ⟨s0, h0⟩ := lm_start (val := val) (sc := sc) K _ _
          rw [h0] at he; cases he
        | blocks hb => exact nB (.auto h1 h2 hb)
        | worker hr hp => exact nP (.auto h1 h2 (.inr ⟨_, hr, hp⟩))
      | fuzzy h1 h2 h3 h4 h5 =>
        obtain ⟨rfl, rfl⟩ := last_same ht h1
        rw [hg] at h5
        cases h5 with
        | own hz => exact hz rfl
        | blocks hb => exact hb.1 rfl
        | worker hz => exact hz rfl
      | finish hr _ => cases hret _ hr
    | predictNaN e1 e2 e3 e4 =>
      rw [g1] at e1; cases e1
      rw [hargs] at e3; cases e3
  · rintro rfl
    cases hret _ hr0
    exact .answered ((answered_predict hq hsq hform).2 ⟨.json _, .ok hargs hr0, rfl⟩)

end
section
variable {S : Type} [LinearOrder S] [Inhabited S] {F : FloatOps S} {val : LMScore → S} {sc : SpellChecker} {docs : List Doc} {query : Bytes}
  (hi : SpellIndex sc docs query) {K : Nat} {files : List (List (List Nat × Nat))} {id : Bytes → Nat} {start : Nat}
  (hm : SpellModel sc files id start) {real : ℚ → S} {pf : Bytes → Except Err F64} {query' raw : Bytes} {kvs : List (Bytes × Bytes)}
  (hq : PctEncoded false query query') (hsq : PathSegment query) (hform : FormEncoded kvs raw)

include hi hm hq hsq hform in
/-- **C94** The same with similarity=NaN: it hangs for ever for longer words (`C94_predict_nan_hangs`), but not for these. -/
theorem C94_predict_short_word_nan (hK : 0 < K) (hargs : predictArgs pf (formValue raw) = .ok ((K : Int), .nan))
    {seq : List Bytes} {word : Bytes} (ht : sc.tokenize query = seq ++ [word]) (hg : sc.grams word = []) :
    ∃ score : Nat → WithTop S, ∀ f, SpellFate F real val sc pf .get (predictTarget query' raw) f ↔
      f = .answered (.json (jsonWords
        (((byScore score (completions docs (sc.prefixGrams word) score K)).take (K + 1)).map sc.dict))) := by
  obtain ⟨⟨r0, hr0⟩, nP, nB, -, score, hret⟩ :=
    C65_short_word (F := nanOps F) (val := fun s => (val s : WithTop S)) (α := ⊤) hi hm hK ht hg
  obtain ⟨path, g1, g2⟩ := C90_request hq hsq (form_plain hform)
  refine ⟨score, fun f => ⟨fun h => ?_, ?_⟩⟩
  · cases h with
    | answered ha =>
      obtain ⟨resp, hr, rfl⟩ := (answered_predict hq hsq hform).1 ha
      cases hr with
      | bad g | failed g | ok g => rw [hargs] at g; cases g
      | failedNaN g h => rw [hargs] at g; cases g; cases hret _ h.1
      | okNaN g h => rw [hargs] at g; cases g; cases hret _ h.1; rfl
    | predictNaN e1 e2 e3 e4 =>
      exfalso
      rw [g1] at e1; cases e1
      rw [g2] at e2; cases e2
      rw [hargs] at e3; cases e3
      cases e4 with
      | auto h1 h2 h3 =>
        cases h3 with
        | own he =>
          obtain ⟨s0, h0⟩ := lm_start (val := fun s => (val s : WithTop S)) (sc := sc) K _ _
          rw [h0] at he; cases he
        | blocks hb => exact nB (.auto h1 h2 hb)
        | worker hr hp => exact nP (.auto h1 h2 (.inr ⟨_, hr, hp⟩))
      | fuzzy h1 h2 h3 h4 h5 =>
        obtain ⟨rfl, rfl⟩ := last_same ht h1
        rw [hg] at h5
        cases h5 with
        | own hz => exact hz rfl
        | blocks hb => exact hb.1 rfl
        | worker hz => exact hz rfl
      | finish hr _ => cases hret _ hr.1
      | endless h1 h2 h3 h4 h5 =>
        obtain ⟨rfl, rfl⟩ := last_same ht h1
        exact h5 hg
    | predict e1 e2 e3 e4 =>
      rw [g1] at e1; cases e1
      rw [hargs] at e3; cases e3
  · rintro rfl
    cases hret _ hr0
    refine .answered ((answered_predict hq hsq hform).2 ⟨.json _, .okNaN hargs ⟨hr0, fun seq' w' h' hne => ?_⟩, rfl⟩)
    obtain ⟨rfl, rfl⟩ := last_same ht h'
    exact absurd hg hne

end
/-- Non-vacuity: the handler accepts `topK=0&similarity=NaN`. -/
example : predictArgs (fun _ => .ok .nan) (fun k => if k = "topK" then [48] else [78, 97, 78]) = .ok (0, .nan) ∧
    predictArgs (fun _ => .ok .nan) (fun k => if k = "topK" then [] else [78, 97, 78]) = .ok (((5 : Nat) : Int), .nan) := by
  constructor <;> decide +kernel

/-- Non-vacuity: the example spell checker of C65 finds no words in the empty query. -/
example : ∃ sc : SpellChecker, (∀ q, SpellIndex sc spellDocs q) ∧ sc.tokenize [] = [] ∧ sc.tokenize [9] ≠ [] := by
  obtain ⟨mk, h⟩ := exampleChecker_ok
  obtain ⟨hi, _, _, _, ht, _⟩ := h fun i => [UInt8.ofNat i]
  exact ⟨_, hi, by rw [ht]; rfl, by rw [ht]; simp⟩

/-- Non-vacuity: the example spell checker of C65, where the word 5 has no n-gram. -/
example : ∃ sc : SpellChecker, (∀ q, SpellIndex sc spellDocs q) ∧ SpellModel sc spellFiles exampleID 0 ∧
    sc.tokenize [9, 5] = [[9]] ++ [[5]] ∧ sc.grams [5] = [] ∧ sc.grams [9] ≠ [] := by
  obtain ⟨mk, h⟩ := exampleChecker_ok
  obtain ⟨hi, hm, hpg, hg, ht, _⟩ := h fun i => [UInt8.ofNat i]
  refine ⟨{ mk (fun i => [UInt8.ofNat i]) with grams := fun w => if w = [5] then [] else (mk fun i => [UInt8.ofNat i]).grams w },
    fun q => ?_, ?_, ?_, ?_, ?_⟩
  · have := hi q
    exact ⟨this.lawful, this.index, this.good, this.first, this.sort, this.prefixGrams, fun w hw => by
      dsimp only
      split
      · simp
      · exact this.grams w hw, this.small⟩
  · exact ⟨hm.corpus, hm.order, hm.model, hm.start32, hm.wordID⟩
  · show (mk fun i => [UInt8.ofNat i]).tokenize [9, 5] = _
    rw [ht]; rfl
  · show (if ([5] : Bytes) = [5] then [] else (mk fun i => [UInt8.ofNat i]).grams [5]) = []
    exact if_pos rfl
  · show (if [9] = [5] then [] else (mk fun i => [UInt8.ofNat i]).grams [9]) ≠ []
    rw [if_neg (by decide), hg]
    decide

/-- Non-vacuity of C94_predict_short_word: a request for the word 9, made too short. -/
example : ∃ sc : SpellChecker, ∀ (val : LMScore → ℚ) (pf : Bytes → Except Err F64), pf (utf8 "1".toList) = .ok (.num 1) →
    ∃ ws, ws.length ≤ 6 ∧ ∀ f, SpellFate (f64Ops 0) (fun x => x) val sc pf .get (utf8 "/predict/%09/?similarity=1".toList) f ↔
      f = .answered (.json (jsonWords ws)) := by
  obtain ⟨mk, h⟩ := exampleChecker_ok
  obtain ⟨hi, hm, hpg, hg, ht, hd, _, _⟩ := h fun i => [UInt8.ofNat i]
  refine ⟨{ mk (fun i => [UInt8.ofNat i]) with grams := fun _ => [] }, fun val pf hpf => ?_⟩
  have l : ∀ s : String, (∀ c ∈ utf8 s.toList, Unreserved c) → PctEncoded true (utf8 s.toList) (utf8 s.toList) := fun s h => enc_literal h
  have hform : FormEncoded [(utf8 "similarity".toList, utf8 "1".toList)] (utf8 "similarity=1".toList) := by
    have h := FormEncoded.last (l "similarity" (by unfold Unreserved; decide +kernel)) (l "1" (by unfold Unreserved; decide +kernel))
    have e : utf8 "similarity=1".toList = utf8 "similarity".toList ++ 61 :: utf8 "1".toList := by decide +kernel
    rw [e]
    exact h
  have es : fieldValue [(utf8 "similarity".toList, utf8 "1".toList)] "similarity".toUTF8.toList = utf8 "1".toList := by decide +kernel
  have hargs := predict_config (pf := pf) (K := 5) (α := 1) hform (.inl ⟨by decide +kernel, rfl⟩)
    (.inr ⟨by rw [es]; decide +kernel, by rw [es]; exact hpf⟩) (by norm_num) (by norm_num)
  have e9 : utf8 "/predict/%09/?similarity=1".toList = predictTarget [37, 48, 57] (utf8 "similarity=1".toList) := by decide +kernel
  rw [e9]
  have hpct : PctEncoded false [9] [37, 48, 57] := .pct (x := 0) (y := 9) (.inl ⟨by decide, by decide⟩) (.inl ⟨by decide, by decide⟩) (by decide) .nil
  obtain ⟨score, key⟩ := C94_predict_short_word (F := f64Ops 0) (val := val) (real := fun x => x) (docs := spellDocs)
    (sc := { mk (fun i => [UInt8.ofNat i]) with grams := fun _ => [] }) (query := [9]) (seq := []) (word := [9])
    ⟨(hi [9]).lawful, (hi [9]).index, (hi [9]).good, (hi [9]).first, (hi [9]).sort, (hi [9]).prefixGrams, fun w hw => by simp, (hi [9]).small⟩
    ⟨hm.corpus, hm.order, hm.model, hm.start32, hm.wordID⟩
    hpct
    (by unfold PathSegment; decide) hform (by decide) hargs (by show (mk _).tokenize [9] = _; rw [ht]; rfl) rfl
  exact ⟨_, by simp, key⟩

end Verif.Props
