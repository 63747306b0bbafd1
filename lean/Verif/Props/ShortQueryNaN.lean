import Verif.Props.CompleteAny
import Verif.Props.NotANumberExamples
/-
C94: a short query with the similarity NaN.
-/
namespace Verif.Props
open Verif Spec Verif.WordSearch Verif.Serve Verif.Wire

section
variable {lower : Nat → Nat} {sort : List Alphabet → List Alphabet} {d : TokenConf} {c : WordConf} (hdc : Describes lower sort d c)
  {ρ : Roaring} {msort : List (PList ρ) → List (PList ρ)} {query : List Char}
  {dict : Bytes} {dict' query' raw : Bytes} {kvs : List (Bytes × Bytes)} (hd : PctEncoded false dict dict') (hsd : PathSegment dict)
  (hq : PctEncoded false (utf8 query) query') (hsq : PathSegment (utf8 query)) (hform : FormEncoded kvs raw)
  {pf : Bytes → Except Err F64} {num : ℚ → Bytes} {F : FloatOps ℚ} {w : World} {oi : OpenIndex} {words : Dict} {tok : Tokenizer}
  (hpub : w.published dict = some ⟨oi, words, suggestTokenizer lower sort d, tok⟩)

include hdc in
theorem short_query_nan (hlen : (utf8 (c.wordText query)).length < c.n) {M : FloatOps (WithTop ℚ) → Metric (WithTop ℚ)}
    {K : Int} {r : Except Err (List (ℚ × Bytes))} :
    ServiceSuggestNaN F M ρ msort (suggestTokenizer lower sort d) oi words (utf8 query) K r ↔ r = .ok [] := by
  have htok := suggestTokens_short hdc hlen
  constructor
  · rintro (⟨e, h, _⟩ | ⟨q, cs, h, _, hcs, rfl⟩)
    · rw [htok] at h; cases h
    · rw [htok] at h
      cases h
      generalize hx : (cs.map fun l => l.map Candidate.withNaN) = x at hcs
      cases hcs with
      | empty _ =>
        cases cs with
        | error e => cases hx
        | ok l =>
          simp only [Except.map, Except.ok.injEq, List.map_eq_nil_iff] at hx
          subst hx
          rfl
      | run h0 => exact absurd rfl h0
  · rintro rfl
    exact .inr ⟨_, .ok [], htok, .inl rfl, .empty rfl, rfl⟩

include hdc hd hsd hq hsq hform hpub in
/-- **C94** The condition of C94_nan_hangs that the query has an n-gram is needed: without, also a request with similarity=NaN is always
answered, with the empty JSON list. -/
theorem C94_suggest_short_nan (hlen : (utf8 (c.wordText query)).length < c.n)
    {m : MetricName} (hm : metricOf (fieldValue kvs "metric".toUTF8.toList) = some m) {K : Nat}
    (hK : (fieldValue kvs "topK".toUTF8.toList = [] ∧ K = 5) ∨
      (IsDecimal (fieldValue kvs "topK".toUTF8.toList) K ∧ 1 ≤ K ∧ K < 2 ^ 63))
    (hs : fieldValue kvs "similarity".toUTF8.toList ≠ []) (hnan : pf (fieldValue kvs "similarity".toUTF8.toList) = .ok .nan) (f : Fate) :
    RequestFate F ρ msort pf num w .get (searchTarget "suggest" dict' query' raw) f ↔ f = .answered (.json "[]".toUTF8.toList) := by
  have hc : buildSearchConfig pf (formValue raw) (goString (utf8 query)) = .ok ⟨goString (utf8 query), K, m, .nan⟩ := by
    refine C55_suggest_nan (by rw [C88_form hform]; exact hs) (by rw [C88_form hform]; exact hnan)
      (by rw [C88_form hform]; exact hm) (by
        rw [C88_form hform]
        refine C55_topK.2 ?_
        rcases hK with ⟨h, rfl⟩ | ⟨h, _, h2⟩
        · exact .inl ⟨h, rfl⟩
        · exact .inr ⟨h, by omega, by exact_mod_cast h2⟩) (by rcases hK with ⟨_, rfl⟩ | ⟨_, h, _⟩ <;> omega)
  obtain ⟨path, p1, p2⟩ := (C88_request hd hsd hq hsq (form_plain hform)).1
  have hj : jsonItems num [] = "[]".toUTF8.toList := by
    have : "[]".toUTF8.toList = [91, 93] := by decide +kernel
    rw [this]
    rfl
  have htok := suggestTokens_short hdc hlen
  constructor
  · intro hf
    cases hf with
    | answered ha =>
      cases (answered_suggest hd hsd hq hsq hform).1 ha with
      | bad g => rw [hc] at g; cases g
      | unknown _ g => rw [hpub] at g; cases g
      | failed g1 g2 | ok g1 g2 =>
        rw [hc] at g1; cases g1
        cases g2
      | failedNaN g1 g2 g3 g4 =>
        rw [hpub] at g3; cases g3
        cases (short_query_nan hdc hlen).1 g4
      | okNaN g1 g2 g3 g4 =>
        rw [hpub] at g3; cases g3
        cases (short_query_nan hdc hlen).1 g4
        rw [← hj]
    | reindexed g1 g2 | completeToken g1 g2 | complete g1 g2 =>
      rw [p1] at g1; cases g1
      rw [p2] at g2; cases g2
    | suggestToken g1 g2 g3 g4 g5 =>
      rw [p1] at g1; cases g1
      rw [p2] at g2; cases g2
      rw [hpub] at g4; cases g4
      dsimp only at g5
      rw [htok] at g5; cases g5
    | suggest g1 g2 g3 g4 =>
      rw [p1] at g1; cases g1
      rw [p2] at g2; cases g2
      rw [hc] at g3; cases g3
      cases g4
    | suggestNaN g1 g2 g3 g4 g5 g6 g7 =>
      rw [p1] at g1; cases g1
      rw [p2] at g2; cases g2
      rw [hpub] at g5; cases g5
      dsimp only at g6
      rw [htok] at g6; cases g6
      cases g7 with
      | own h => exact absurd rfl h
      | blocks h => exact absurd rfl h.1
      | worker h => exact absurd rfl h
    | suggestEndless g1 g2 g3 g4 g5 g6 g7 =>
      rw [p1] at g1; cases g1
      rw [p2] at g2; cases g2
      rw [hpub] at g5; cases g5
      dsimp only at g6
      rw [htok] at g6; cases g6
      exact absurd rfl g7
  · rintro rfl
    rw [← hj]
    have := (answered_suggest hd hsd hq hsq hform (ρ := ρ) (msort := msort) (pf := pf) (F := F) (num := num) (names := w.names)).2
      (.okNaN hc rfl hpub ((short_query_nan hdc hlen).2 rfl))
    exact .answered this

end

/-- **C94** With 4-grams and any dictionary: "GET /suggest/fruit/a/?metric=Cosine&similarity=NaN" is answered with "[]". -/
example (ρ : Roaring) (msort : List (PList ρ) → List (PList ρ)) (num : ℚ → Bytes) (w : World) (oi : OpenIndex) (words : Dict) (tok : Tokenizer)
    (hpub : w.published (utf8 "fruit".toList) =
      some ⟨oi, words, suggestTokenizer asciiLower id { tinyConf with nGramSize := 4 }, tok⟩) (f : Fate) :
    RequestFate (f64Ops 0) ρ msort (fun _ => .ok .nan) num w .get (utf8 "/suggest/fruit/a/?metric=Cosine&similarity=NaN".toList) f ↔
      f = .answered (.json "[]".toUTF8.toList) := by
  have hdc : Describes asciiLower id { tinyConf with nGramSize := 4 } { tinySpec with n := 4 } := C94_suggest_short_example.1
  have e : utf8 "/suggest/fruit/a/?metric=Cosine&similarity=NaN".toList =
      searchTarget "suggest" (utf8 "fruit".toList) (utf8 "a".toList) (utf8 "metric=Cosine&similarity=NaN".toList) := by decide +kernel
  rw [e]
  exact C94_suggest_short_nan hdc (query := "a".toList) (dict := utf8 "fruit".toList) (enc_literal (by unfold Unreserved; decide +kernel))
    (by unfold PathSegment; decide +kernel) (enc_literal (by unfold Unreserved; decide +kernel)) (by unfold PathSegment; decide +kernel)
    nanForm_encoded hpub (by decide +kernel) (m := .cosine) (by decide +kernel) (K := 5) (.inl ⟨by decide +kernel, rfl⟩)
    (by decide +kernel) rfl f

end Verif.Props
