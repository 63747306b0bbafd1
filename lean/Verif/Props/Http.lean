import Verif.Proofs.Http
import Verif.Props.SpellcheckerExamples
/-!
Property theorems C55 (request parameters: internal/http, internal/spellchecker/api, internal/suggest/api).

`form` — the form values of the request; `pf` — `strconv.ParseFloat`, arbitrary.
-/
namespace Verif.Props
open Verif Spec

/-- **C55** The values of `topK` that are accepted: nothing (5), or a decimal integer from 0 to 2^63-1. Everything else gives
status 400. -/
theorem C55_topK {s : Bytes} {k : Int} :
    formTopK s 5 = .ok k ↔ (s = [] ∧ k = 5) ∨ (IsDecimal s k ∧ 0 ≤ k ∧ k < 2 ^ 63) := by
  unfold formTopK formInt
  by_cases hs : s = []
  · subst hs
    have : ¬ IsDecimal [] k := by simp [IsDecimal, IsDigits]
    simp [this, eq_comm]
  · rw [if_neg hs]
    simp only [hs, false_and, false_or]
    cases hp : parseInt s with
    | error e =>
      simp only [reduceCtorEq, false_iff]
      rintro ⟨h1, h2, h3⟩
      rw [parseInt_ok.2 ⟨h1, by omega, h3⟩] at hp; cases hp
    | ok v =>
      have hv := parseInt_ok.1 hp
      simp only
      split
      · simp only [reduceCtorEq, false_iff]
        rintro ⟨h1, h2, h3⟩
        rw [parseInt_ok.2 ⟨h1, by omega, h3⟩] at hp; cases hp
        omega
      · simp only [Except.ok.injEq]
        constructor
        · rintro rfl; exact ⟨hv.1, by omega, hv.2.2⟩
        · rintro ⟨h1, h2, h3⟩
          rw [parseInt_ok.2 ⟨h1, by omega, h3⟩] at hp; cases hp; rfl

example : formTopK [48] 5 = .ok 0 ∧ formTopK [45, 48] 5 = .ok 0 ∧ formTopK [43, 55] 5 = .ok 7 ∧ formTopK [] 5 = .ok 5 :=
  ⟨C55_topK.2 (.inr ⟨.inl ⟨by simp [IsDigits], by decide⟩, by decide, by decide⟩),
   C55_topK.2 (.inr ⟨.inr (.inr ⟨[48], rfl, by simp [IsDigits], by decide⟩), by decide, by decide⟩),
   C55_topK.2 (.inr ⟨.inr (.inl ⟨[55], rfl, by simp [IsDigits], by decide⟩), by decide, by decide⟩), rfl⟩

/-- **C55** The values of `similarity` that are accepted: nothing (0.5), a number in [0, 1], and NaN. -/
theorem C55_similarity {pf : Bytes → Except Err F64} {s : Bytes} {v : F64} :
    formSimilarity pf s (.num (1 / 2)) = .ok v ↔
      (s = [] ∧ v = .num (1 / 2)) ∨ (s ≠ [] ∧ pf s = .ok v ∧ (v = .nan ∨ ∃ x, v = .num x ∧ 0 ≤ x ∧ x ≤ 1)) := by
  have key : ∀ w : F64, (w.lt (.num 0) || w.gt (.num 1)) = false ↔ (w = .nan ∨ ∃ x, w = .num x ∧ 0 ≤ x ∧ x ≤ 1) := by
    intro w
    cases w with
    | nan => simp [F64.lt, F64.gt]
    | negInf => simp [F64.lt, F64.gt, F64.le]
    | posInf => simp [F64.lt, F64.gt, F64.le]
    | num x => simp [F64.lt, F64.gt, F64.le]
  unfold formSimilarity formFloat
  by_cases hs : s = []
  · subst hs
    have h1 : ((F64.num (1 / 2)).lt (.num 0) || (F64.num (1 / 2)).gt (.num 1)) = false :=
      (key _).2 (.inr ⟨_, rfl, by norm_num, by norm_num⟩)
    simp only [if_true, h1, Bool.false_eq_true, if_false, Except.ok.injEq, true_and, ne_eq, not_true, false_and, or_false]
    exact eq_comm
  · rw [if_neg hs]
    simp only [hs, false_and, false_or, ne_eq, not_false_eq_true, true_and]
    cases hp : pf s with
    | error e => simp
    | ok w =>
      simp only
      have hk := key w
      by_cases hb : (w.lt (.num 0) || w.gt (.num 1)) = true
      · rw [if_pos hb]
        simp only [reduceCtorEq, false_iff]
        rintro ⟨h1, h2⟩
        simp only [Except.ok.injEq] at h1
        subst h1
        rw [hk.2 h2] at hb; cases hb
      · rw [if_neg hb]
        simp only [Bool.not_eq_true] at hb
        simp only [Except.ok.injEq]
        constructor
        · rintro rfl; exact ⟨rfl, hk.1 hb⟩
        · rintro ⟨h, _⟩; exact h

/-- **C55** (partial) The suggest handler calls the library only with `topK` ≥ 1 and a similarity in (0, 1]; otherwise it
answers 400 — provided the similarity is not NaN.

Missing: NaN is passed on to the library, see `C55_suggest_nan`. -/
theorem C55_suggest_partial {pf : Bytes → Except Err F64} {form : String → Bytes} {query : String}
    (hnan : pf (form "similarity") ≠ .ok .nan) {c : SearchConfig MetricName} :
    buildSearchConfig pf form query = .ok c ↔
      (formTopK (form "topK") 5 = .ok c.topK ∧ 1 ≤ c.topK) ∧ metricOf (form "metric") = some c.metric ∧ c.query = query ∧
      formSimilarity pf (form "similarity") (.num (1 / 2)) = .ok c.similarity ∧ ∃ x, c.similarity = .num x ∧ 0 < x ∧ x ≤ 1 := by
  unfold buildSearchConfig
  cases ht : formTopK (form "topK") 5 with
  | error e => simp
  | ok topK =>
    simp only
    cases hm : metricOf (form "metric") with
    | none => simp
    | some m =>
      simp only
      cases hsim : formSimilarity pf (form "similarity") (.num (1 / 2)) with
      | error e => simp
      | ok sim =>
        have hne : sim ≠ .nan := by
          rintro rfl
          rcases C55_similarity.1 hsim with ⟨_, h⟩ | ⟨_, h, _⟩
          · cases h
          · exact hnan h
        obtain ⟨h1, h2⟩ := C32_search_config_partial query topK m sim hne
        simp only [Except.ok.injEq, Option.some.injEq]
        constructor
        · intro h
          have h3 := h1.1 ⟨c, h⟩
          have h4 := h2 c h
          subst h4
          exact ⟨⟨rfl, h3.1⟩, rfl, rfl, rfl, h3.2⟩
        · rintro ⟨⟨e1, e2⟩, e3, e4, e5, e6⟩
          rw [← e1] at e2
          rw [← e5] at e6
          obtain ⟨c', hc'⟩ := h1.2 ⟨e2, e6⟩
          rw [hc', h2 c' hc', e1, e3, e5, ← e4]

/-- **C55** The metric used is the one named in the request (exactly these five names, case sensitive); every other name gives
status 400 (`C55_suggest_partial`). -/
theorem C55_metric_names {S : Type} (F : FloatOps S) (s : Bytes) :
    (metricOf s).map (·.metric F) =
      if s = "Jaccard".toUTF8.toList then some (jaccardMetric F)
      else if s = "Cosine".toUTF8.toList then some (cosineMetric F)
      else if s = "Dice".toUTF8.toList then some (diceMetric F)
      else if s = "Exact".toUTF8.toList then some (exactMetric F)
      else if s = "Overlap".toUTF8.toList then some (overlapMetric F)
      else none := by
  have h1 : "Jaccard".toUTF8.toList = [74, 97, 99, 99, 97, 114, 100] := by decide +kernel
  have h2 : "Cosine".toUTF8.toList = [67, 111, 115, 105, 110, 101] := by decide +kernel
  have h3 : "Dice".toUTF8.toList = [68, 105, 99, 101] := by decide +kernel
  have h4 : "Exact".toUTF8.toList = [69, 120, 97, 99, 116] := by decide +kernel
  have h5 : "Overlap".toUTF8.toList = [79, 118, 101, 114, 108, 97, 112] := by decide +kernel
  rw [h1, h2, h3, h4, h5]
  unfold metricOf
  split_ifs <;> rfl

/-- **C55** is false for NaN: `?similarity=NaN` reaches the library. -/
theorem C55_suggest_nan {pf : Bytes → Except Err F64} {form : String → Bytes} {query : String} {m : MetricName} {k : Int}
    (hs : form "similarity" ≠ []) (hp : pf (form "similarity") = .ok .nan) (hm : metricOf (form "metric") = some m)
    (hk : formTopK (form "topK") 5 = .ok k) (h1 : 1 ≤ k) : buildSearchConfig pf form query = .ok ⟨query, k, m, .nan⟩ := by
  unfold buildSearchConfig
  rw [hk, hm, C55_similarity.2 (.inr ⟨hs, hp, .inl rfl⟩)]
  exact C32_nan_accepted _ _ _ h1

/-- **C55** Whatever the parameters, the autocomplete handler calls the library with a limit for which it neither panics nor
blocks nor runs for ever. -/
theorem C55_autocomplete {ρ : Roaring} (L : ρ.Lawful) {G : Gob} (LG : G.Lawful) {docs : List Doc} (hd : GoodDocs docs)
    (hf : FirstNonempty docs) {oi : OpenIndex} (hoi : IndexOf ρ G docs oi) {sort : List (PList ρ) → List (PList ρ)}
    (hs : ∀ r, (sort r).Perm r) {q : List String} (hq : FewCommon docs q) (hne : q ≠ [])
    {form : String → Bytes} {limit : Int} (ha : autocompleteArgs form = .ok limit) :
    ¬ AutocompletePanics (autocompleteCall ρ sort oi q limit) ∧ ¬ AutocompleteBlocks (autocompleteCall ρ sort oi q limit) ∧
    (∀ f : Nat → AState _ _, ¬ ∀ i, (autocompleteCall ρ sort oi q limit).Step (f i) (f (i + 1))) ∧
    ∃ r, AutocompleteReturns (autocompleteCall ρ sort oi q limit) r := by
  have h0 : 0 ≤ limit := by
    rcases C55_topK.1 ha with ⟨_, h⟩ | ⟨_, h, _⟩
    · omega
    · exact h
  obtain ⟨n, rfl⟩ := Int.eq_ofNat_of_zero_le h0
  exact C33_terminates L LG hd hf hoi hs hq hne (limit := n)

section
variable {sc : SpellChecker} {docs : List Doc} {query : Bytes} (hi : SpellIndex sc docs query) {oob : Int} {val : LMScore → ℝ}
  {files : List (List (List Nat × Nat))} {id : Bytes → Nat} {start : Nat} (hm : SpellModel sc files id start)
  {pf : Bytes → Except Err F64} {form : String → Bytes}

include hi hm in
/-- **C55** (partial) The predict handler answers with status 400 or with a list of words, under every schedule, if the
parameters are not a `topK` of 0 nor a similarity of 0 or NaN, and the last word of the query is not too long (C65).

Missing: for `topK=0` it is false (`C55_predict_zero_topK`); the similarities 0 and NaN are passed on to the library
(`C55_predict_bad_similarity`), where 0 panics on some platforms (`C55_predict_zero_similarity`). -/
theorem C55_predict_partial (hk : formTopK (form "topK") 5 ≠ .ok 0) (hs0 : pf (form "similarity") ≠ .ok (.num 0))
    (hnan : pf (form "similarity") ≠ .ok .nan)
    (hα : ∀ x : ℚ, 0 < x → x ≤ 1 → formSimilarity pf (form "similarity") (.num (1 / 2)) = .ok (.num x) → GoodSimilarity sc query x)
    (hlong : ∀ seq word, sc.tokenize query = seq ++ [word] → ∃ d ∈ docs, (sc.grams word).length ≤ d.terms.length) :
    let real := fun x : ℚ => (x : ℝ)
    ¬ PredictHandlerPanics (realOps oob) real val sc pf form query ∧ ¬ PredictHandlerBlocks (realOps oob) real val sc pf form query ∧
    (∃ resp, PredictHandled (realOps oob) real val sc pf form query resp) ∧
    ∀ resp, PredictHandled (realOps oob) real val sc pf form query resp → resp = .badRequest ∨ ∃ ws, resp = .json ws := by
  intro real
  have hargs : ∀ topK sim, predictArgs pf form = .ok (topK, sim) → ∃ (K : Nat) (x : ℚ), topK = K ∧ 0 < K ∧ sim = .num x ∧
      GoodSimilarity sc query x := by
    intro topK sim h
    unfold predictArgs at h
    cases ht : formTopK (form "topK") 5 with
    | error e => rw [ht] at h; cases h
    | ok k =>
      rw [ht] at h
      simp only at h
      cases hsim : formSimilarity pf (form "similarity") (.num (1 / 2)) with
      | error e => rw [hsim] at h; cases h
      | ok v =>
        rw [hsim] at h
        simp only [Except.ok.injEq, Prod.mk.injEq] at h
        obtain ⟨rfl, rfl⟩ := h
        have h0 : 0 ≤ k := by
          rcases C55_topK.1 ht with ⟨_, h⟩ | ⟨_, h, _⟩
          · omega
          · exact h
        have hne : k ≠ 0 := by rintro rfl; exact hk ht
        obtain ⟨K, rfl⟩ := Int.eq_ofNat_of_zero_le h0
        refine ⟨K, ?_⟩
        rcases C55_similarity.1 hsim with ⟨_, rfl⟩ | ⟨_, hp, h | ⟨x, rfl, hx0, hx1⟩⟩
        · exact ⟨1 / 2, rfl, by omega, rfl, hα _ (by norm_num) (by norm_num) hsim⟩
        · rw [h] at hp; exact absurd hp hnan
        · have : x ≠ 0 := by rintro rfl; exact hs0 hp
          exact ⟨x, rfl, by omega, rfl, hα x (lt_of_le_of_ne hx0 (Ne.symm this)) hx1 hsim⟩
  have hall : ∀ {K : Nat} {x : ℚ}, 0 < K → GoodSimilarity sc query x → _ := fun {K x} hK hg =>
    C65_answers_partial (oob := oob) (val := val) (query := query) hi hg hm (K := K) hK (fun seq word ht => by
      obtain ⟨d, hd, hle⟩ := hlong seq word ht
      refine ⟨d, hd, ?_⟩
      have h1 : ((sc.grams word).length : ℝ) ≤ d.terms.length := by exact_mod_cast hle
      have h2 : (x : ℝ) * x ≤ 1 := by nlinarith [hg.pos, hg.le]
      have h3 : (0 : ℝ) ≤ (sc.grams word).length := by positivity
      nlinarith)
  refine ⟨?_, ?_, ?_, ?_⟩
  · rintro (⟨topK, x, h, hp⟩ | ⟨topK, h, hp⟩) <;> obtain ⟨K, x', rfl, hK, hx, hg⟩ := hargs _ _ h
    · cases hx
      exact (hall hK hg).1 hp
    · cases hx
  · rintro (⟨topK, x, h, hp⟩ | ⟨topK, h, hp⟩) <;> obtain ⟨K, x', rfl, hK, hx, hg⟩ := hargs _ _ h
    · cases hx
      exact (hall hK hg).2.1 hp
    · cases hx
  · cases h : predictArgs pf form with
    | error e => exact ⟨_, .bad h⟩
    | ok a =>
      obtain ⟨topK, sim⟩ := a
      obtain ⟨K, x', rfl, hK, rfl, hg⟩ := hargs _ _ h
      obtain ⟨ws, hws⟩ := (hall hK hg).2.2.2.1
      exact ⟨_, .ok h hws⟩
  · intro resp hr
    cases hr with
    | bad h => exact .inl rfl
    | failed h hp =>
      obtain ⟨K, x', rfl, hK, hx, hg⟩ := hargs _ _ h
      cases hx
      obtain ⟨ws, hws⟩ := (hall hK hg).2.2.2.2 _ hp
      cases hws
    | ok h hp | okNaN h hp => exact .inr ⟨_, rfl⟩
    | failedNaN h hp =>
      obtain ⟨K, x', rfl, hK, hx, hg⟩ := hargs _ _ h
      cases hx

include hi hm in
/-- **C55** is false: with `?topK=0` the request is not refused, and if some indexed word contains all n-grams of the last
word of the query, a goroutine panics — which ends the process — and no response is sent under any schedule. -/
theorem C55_predict_zero_topK {F : FloatOps ℝ} {real : ℚ → ℝ} (hk : IsDecimal (form "topK") 0) (hs : form "similarity" = [])
    {seq : List Bytes} {word : Bytes} (ht : sc.tokenize query = seq ++ [word]) (hw : sc.prefixGrams word ≠ [])
    (hc : containing docs (sc.prefixGrams word) ≠ []) :
    PredictHandlerPanics F real val sc pf form query ∧ ∀ resp, ¬ PredictHandled F real val sc pf form query resp := by
  have ha : predictArgs pf form = .ok (0, .num (1 / 2)) := by
    unfold predictArgs
    rw [C55_topK.2 (.inr ⟨hk, le_refl _, by norm_num⟩), hs, C55_similarity.2 (.inl ⟨rfl, rfl⟩)]
  have h := C65_zero_panics (F := F) (val := val) (α := real (1 / 2)) hi hm ht hw hc
  refine ⟨.inl ⟨0, _, ha, h.1⟩, ?_⟩
  rintro resp (⟨h'⟩ | ⟨h', hr⟩ | ⟨h', hr⟩ | ⟨h', hr⟩ | ⟨h', hr⟩)
  · rw [ha] at h'; cases h'
  · rw [ha] at h'; cases h'
    exact h.2 _ hr
  · rw [ha] at h'; cases h'
    exact h.2 _ hr
  · rw [ha] at h'; cases h'
  · rw [ha] at h'; cases h'

/-- **C55** is false for similarities: 0 and NaN are not in (0, 1], but `Predict` is called with them. -/
theorem C55_predict_bad_similarity {s : F64} (hs : s = .num 0 ∨ s = .nan) (hne : form "similarity" ≠ [])
    (hp : pf (form "similarity") = .ok s) (hk : form "topK" = []) : predictArgs pf form = .ok (5, s) := by
  unfold predictArgs
  rw [hk, C55_topK.2 (.inl ⟨rfl, rfl⟩), C55_similarity.2 (.inr ⟨hne, hp, ?_⟩)]
  rcases hs with rfl | rfl
  · exact .inr ⟨0, rfl, le_refl _, by norm_num⟩
  · exact .inl rfl

include hi hm in
/-- … and with `?similarity=0` it panics if the conversion of +Inf to `int` gives the smallest integer, as on amd64 (`hinf`;
`hzero`: 0 times a number is 0), and fewer than five indexed words contain all n-grams of the last word of the query. -/
theorem C55_predict_zero_similarity {F : FloatOps ℝ} {real : ℚ → ℝ} (hne : form "similarity" ≠ [])
    (hp : pf (form "similarity") = .ok (.num 0)) (hk : form "topK" = [])
    {seq : List Bytes} {word : Bytes} (ht : sc.tokenize query = seq ++ [word]) (hw : sc.grams word ≠ [])
    (hc : (containing docs (sc.prefixGrams word)).length < 5)
    (hzero : F.ceilInt (F.mul (F.mul (real 0) (real 0)) (F.ofInt (sc.grams word).length)) = 0)
    (hinf : F.floorInt (F.div (F.ofInt (sc.grams word).length) (F.mul (real 0) (real 0))) = -2 ^ 63) :
    PredictHandlerPanics F real val sc pf form query := by
  refine .inl ⟨5, 0, C55_predict_bad_similarity (.inl rfl) hne hp hk, ?_⟩
  obtain ⟨next, score, hn, hsc⟩ := spell_score_exists hi hm val seq
  obtain ⟨_, _, cs, hcs⟩ := lm_terminates hi hsc (K := 5) (by decide) word ⟨_, ht⟩
  refine .fuzzy ht hn hcs (by exact_mod_cast lm_few hi hsc ⟨_, ht⟩ (by decide) hc hcs) ?_
  refine .start (e := .panicMake) (by simpa [suggestCall] using hw) ?_
  unfold SConf.start
  rw [if_pos]
  show (if F.floorInt (F.div (F.ofInt (sc.grams word).length) (F.mul (real 0) (real 0))) ≥ sc.index.size then (sc.index.size : Int) - 1
    else F.floorInt (F.div (F.ofInt (sc.grams word).length) (F.mul (real 0) (real 0)))) -
    F.ceilInt (F.mul (F.mul (real 0) (real 0)) (F.ofInt (sc.grams word).length)) + 1 < 0
  rw [hzero, hinf, if_neg (by omega)]
  norm_num

end

/-- A request with the given values of `topK` and `similarity`. -/
def exampleForm (topK similarity : Bytes) (field : String) : Bytes :=
  if field = "topK" then topK else if field = "similarity" then similarity else []

/-- Exact arithmetic with an out-of-range number for +Inf, converted to `int` as on amd64. -/
noncomputable def infOps : FloatOps ℝ := { realOps (-2 ^ 63) with div := fun x y => if y = 0 then 2 ^ 64 else x / y }

/-- The example spell checker of `C65_wrong`: `?topK=0` for the query "9" crashes; `?similarity=0` for the query "8" crashes
on amd64; without parameters the query "9" is answered. -/
theorem C55_wrong : ∃ (sc : SpellChecker) (docs : List Doc), SpellIndex sc docs [9] ∧ SpellIndex sc docs [8] ∧ SpellModel sc spellFiles exampleID 0 ∧
    ∀ (val : LMScore → ℝ) (pf : Bytes → Except Err F64), pf [48] = .ok (.num 0) →
      (PredictHandlerPanics (realOps 0) (fun x => (x : ℝ)) val sc pf (exampleForm [48] []) [9] ∧
        ∀ resp, ¬ PredictHandled (realOps 0) (fun x => (x : ℝ)) val sc pf (exampleForm [48] []) [9] resp) ∧
      PredictHandlerPanics infOps (fun x => (x : ℝ)) val sc pf (exampleForm [] [48]) [8] := by
  obtain ⟨mk, h⟩ := exampleChecker_ok
  obtain ⟨hi, hm, hpg, hg, ht, hd, hα, _⟩ := h fun i => [UInt8.ofNat i]
  have hg8 : (mk fun i => [UInt8.ofNat i]).grams [8] = ["g", "h", "i", "j", "k", "l", "m"] := by rw [hg]; decide
  have hg9 : (mk fun i => [UInt8.ofNat i]).prefixGrams [9] = ["b"] := by rw [hpg]; decide
  refine ⟨_, _, hi _, hi _, hm, fun val pf hpf => ⟨?_, ?_⟩⟩
  · exact C55_predict_zero_topK (hi _) hm (.inl ⟨by simp [exampleForm, IsDigits], by decide⟩) rfl (seq := []) (word := [9])
      (by rw [ht]; rfl) (by rw [hg9]; simp) (by rw [hg9]; decide)
  · refine C55_predict_zero_similarity (hi _) hm (by simp [exampleForm]) (by simpa [exampleForm] using hpf) rfl (seq := []) (word := [8])
      (by rw [ht]; rfl) (by rw [hg8]; simp) (by rw [hpg]; decide) ?_ ?_
    · simp [infOps, realOps, toInt64]
    · simp only [infOps, realOps, toInt64, Rat.cast_zero, mul_zero, if_true]
      have : (2 ^ 64 : ℝ) = ((2 ^ 64 : Int) : ℝ) := by norm_num
      rw [this, Int.floor_intCast]
      decide

/-- Non-vacuity of C55_predict_partial. -/
example : ∃ (sc : SpellChecker) (docs : List Doc), SpellIndex sc docs [9] ∧ SpellModel sc spellFiles exampleID 0 ∧
    formTopK (exampleForm [] [] "topK") 5 ≠ .ok 0 ∧
    (∀ pf, ∀ x : ℚ, 0 < x → x ≤ 1 → formSimilarity pf (exampleForm [] [] "similarity") (.num (1 / 2)) = .ok (.num x) → GoodSimilarity sc [9] x) ∧
    ∀ seq word, sc.tokenize [9] = seq ++ [word] → ∃ d ∈ docs, (sc.grams word).length ≤ d.terms.length := by
  obtain ⟨mk, h⟩ := exampleChecker_ok
  obtain ⟨hi, hm, hpg, hg, ht, hd, hα, _⟩ := h fun i => [UInt8.ofNat i]
  refine ⟨_, _, hi _, hm, ?_, ?_, ?_⟩
  · have : exampleForm [] [] "topK" = [] := rfl
    rw [this, (C55_topK (k := 5)).2 (.inl ⟨rfl, rfl⟩)]; simp
  · intro pf x _ _ hx
    rcases C55_similarity.1 hx with ⟨_, h⟩ | ⟨h, _⟩
    · cases h
      have : ((1 / 2 : ℚ) : ℝ) = 1 / 2 := by norm_num
      rw [this]; exact hα _
    · exact absurd rfl h
  · intro seq word hsw
    rw [ht] at hsw
    have hw : word = [9] := by
      have := congrArg List.getLast? hsw
      simpa using this.symm
    subst hw
    exact ⟨⟨0, ["a", "b", "c", "d", "e", "f"]⟩, by simp [spellDocs], by rw [hg]; decide⟩

/-- Non-vacuity of C55_suggest_partial: `?metric=Cosine` is accepted. -/
example : ∃ c, buildSearchConfig (fun _ => .error .eof) (fun f => if f = "metric" then [67, 111, 115, 105, 110, 101] else []) "q" = .ok c := by
  refine ⟨⟨"q", 5, .cosine, .num (1 / 2)⟩, (C55_suggest_partial (by simp)).2 ⟨⟨C55_topK.2 (.inl ⟨rfl, rfl⟩), by decide⟩, by decide, rfl,
    C55_similarity.2 (.inl ⟨rfl, rfl⟩), _, rfl, by norm_num, by norm_num⟩⟩

end Verif.Props
