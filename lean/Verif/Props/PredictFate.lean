import Verif.Props.ServeFate
import Verif.Props.Spellchecker
import Verif.Props.WirePredict
import Verif.Props.SpellcheckerExamples
/-
C65, C94: exactly which queries the spell checker answers.
-/
namespace Verif.Props
open Verif Spec Verif.Serve Verif.Wire

theorem keys_ids {cs : List (Candidate ℚ)} {ds : List Doc} (h : List.Forall₂ (fun c d => c.key = d.id) cs ds) :
    cs.map Candidate.key = ds.map Doc.id := by
  induction h with
  | nil => rfl
  | cons h _ ih => simp [h, ih]

theorem last_same {l seq seq' : List Bytes} {w w' : Bytes} (h : l = seq ++ [w]) (h' : l = seq' ++ [w']) : seq = seq' ∧ w = w' := by
  rw [h] at h'
  have := List.append_inj' h' rfl
  simpa using this

section
variable {S : Type} [LinearOrder S] [Inhabited S] {sc : SpellChecker} {docs : List Doc} {query : Bytes} (hi : SpellIndex sc docs query)
  {F : FloatOps S} {val : LMScore → S} {K : Nat} {α : S} {next : Option ScorerNext} {score : Nat → S}

include hi in
/-- What can happen to a call of `Predict`, from what can happen to the fuzzy search. -/
theorem predict_fates_of (hK : 0 < K) {seq : List Bytes} {word : Bytes} (ht : sc.tokenize query = seq ++ [word])
    (hn : spellScorer sc seq = .ok next) (hsc : ∀ d ∈ docs, lmScore val next d.id = .ok (score d.id)) {R B P : Prop}
    (k1 : (∃ r, SuggestReturns (suggestCall F (cosineMetric F) sc.ρ sc.sort sc.index (sc.grams word) α K) r) ↔ R)
    (k2 : SuggestBlocks (suggestCall F (cosineMetric F) sc.ρ sc.sort sc.index (sc.grams word) α K) ↔ B)
    (k3 : SuggestPanics (suggestCall F (cosineMetric F) sc.ρ sc.sort sc.index (sc.grams word) α K) ↔ P) :
    let enough := sc.prefixGrams word ≠ [] ∧ K ≤ (containing docs (sc.prefixGrams word)).length
    ((∃ r, PredictReturns F val sc query K α r) ↔ enough ∨ R) ∧
    (PredictBlocks F val sc query K α ↔ ¬ enough ∧ B) ∧
    (PredictPanics F val sc query K α ↔ ¬ enough ∧ P) ∧
    ¬ PredictRunsForever F val sc query K α ∧
    ((∀ s, (suggestCall F (cosineMetric F) sc.ρ sc.sort sc.index (sc.grams word) α K).Reachable s → s.panicked = none) →
      (∀ e, ¬ PredictReturns F val sc query K α (.error e)) →
      ∀ fate, PredictFails F val sc query K α fate → (fate = .stuck ∧ ¬ enough ∧ B) ∨ (fate = .aborted ∧ ¬ enough ∧ P)) := by
  intro enough
  obtain ⟨nP, nB, cs0, hcs0⟩ := lm_terminates hi hsc hK word ⟨_, ht⟩
  have hsame : ∀ {seq' word'}, sc.tokenize query = seq' ++ [word'] → seq = seq' ∧ word = word' := by
    intro seq' word' h'
    rw [ht] at h'
    have := List.append_inj' h' rfl
    simpa using this
  have hlenK : ∀ {cs}, AutocompleteReturns (lmAutocompleteCall sc.ρ sc.sort sc.index (sc.prefixGrams word) (lmScore val next) K) (.ok cs) →
      ((cs.length : Int) < K ↔ ¬ enough) := by
    intro cs h
    by_cases hw : sc.prefixGrams word = []
    · have := lm_autocomplete_empty hw h
      cases this
      simp only [List.length_nil, enough, hw]
      constructor
      · rintro _ ⟨h, _⟩; exact h rfl
      · intro _; exact_mod_cast hK
    · have := lm_autocomplete hi hsc ⟨_, ht⟩ hK hw h
      cases this
      unfold best
      rw [List.length_take, List.length_mergeSort, List.length_map]
      simp only [enough, not_and, not_le]
      constructor
      · intro h _; omega
      · intro h; have := h hw; omega
  refine ⟨?_, ?_, ?_, ?_, ?_⟩
  · constructor
    · rintro ⟨r, hr⟩
      cases hr with
      | noTokens h => rw [ht] at h; simp at h
      | scorerErr h1 h2 =>
        obtain ⟨rfl, rfl⟩ := hsame h1
        rw [hn] at h2; cases h2
      | autoErr h1 h2 h3 =>
        obtain ⟨rfl, rfl⟩ := hsame h1
        rw [hn] at h2; cases h2
        by_cases hw : sc.prefixGrams word = []
        · cases lm_autocomplete_empty hw h3
        · cases lm_autocomplete hi hsc ⟨_, ht⟩ hK hw h3
      | fuzzyErr h1 h2 h3 h4 h5 =>
        obtain ⟨rfl, rfl⟩ := hsame h1
        exact .inr (k1.1 ⟨_, h5⟩)
      | enough h1 h2 h3 h4 =>
        obtain ⟨rfl, rfl⟩ := hsame h1
        rw [hn] at h2; cases h2
        left
        by_contra h
        have := (hlenK h3).2 h
        omega
      | fuzzy h1 h2 h3 h4 h5 =>
        obtain ⟨rfl, rfl⟩ := hsame h1
        exact .inr (k1.1 ⟨_, h5⟩)
    · intro h
      by_cases he : enough
      · exact ⟨_, .enough ht hn hcs0 (not_lt.1 fun h => (hlenK hcs0).1 h he)⟩
      · obtain ⟨r, hr⟩ := k1.2 (h.resolve_left he)
        cases r with
        | ok fs => exact ⟨_, .fuzzy ht hn hcs0 ((hlenK hcs0).2 he) hr⟩
        | error e => exact ⟨_, .fuzzyErr ht hn hcs0 ((hlenK hcs0).2 he) hr⟩
  · rw [← k2]
    constructor
    · rintro (⟨h1, h2, h3⟩ | ⟨h1, h2, h3, h4, h5⟩)
      · obtain ⟨rfl, rfl⟩ := hsame h1
        rw [hn] at h2; cases h2
        exact absurd h3 nB
      · obtain ⟨rfl, rfl⟩ := hsame h1
        rw [hn] at h2; cases h2
        exact ⟨(hlenK h3).1 h4, h5⟩
    · rintro ⟨he, h⟩
      exact .fuzzy ht hn hcs0 ((hlenK hcs0).2 he) h
  · rw [← k3]
    constructor
    · rintro (⟨h1, h2, h3⟩ | ⟨h1, h2, h3, h4, h5⟩)
      · obtain ⟨rfl, rfl⟩ := hsame h1
        rw [hn] at h2; cases h2
        exact absurd h3 nP
      · obtain ⟨rfl, rfl⟩ := hsame h1
        rw [hn] at h2; cases h2
        exact ⟨(hlenK h3).1 h4, h5⟩
    · rintro ⟨he, h⟩
      exact .fuzzy ht hn hcs0 ((hlenK hcs0).2 he) h
  · rintro (⟨h1, h2, h3⟩ | ⟨h1, h2, h3⟩)
    · exact ano_infinite_run _ h3
    · exact no_infinite_run _ h3
  · intro hw hp fate hf
    cases hf with
    | auto h1 h2 h3 =>
      obtain ⟨rfl, rfl⟩ := hsame h1
      rw [hn] at h2; cases h2
      cases h3 with
      | own he =>
        obtain ⟨s0, h0⟩ := lm_start (val := val) (sc := sc) K word next
        rw [h0] at he; cases he
      | blocks hb => exact absurd hb nB
      | worker hr hp => exact absurd (.inr ⟨_, hr, hp⟩) nP
    | fuzzy h1 h2 h3 h4 h5 =>
      obtain ⟨rfl, rfl⟩ := hsame h1
      rw [hn] at h2; cases h2
      have he := (hlenK h3).1 h4
      cases h5 with
      | own hz h => exact .inr ⟨rfl, he, k3.1 (.start hz h)⟩
      | blocks hb => exact .inl ⟨rfl, he, k2.1 hb⟩
      | worker hz hr hp' => exact absurd (hw _ hr) hp'
    | finish hr _ => exact absurd hr (hp _)

end

section
variable {sc : SpellChecker} {docs : List Doc} {query : Bytes} (hi : SpellIndex sc docs query) {oob : Int} {val : LMScore → ℝ}
  {K : Nat} {α : ℝ} (hα : GoodSimilarity sc query α) {files : List (List (List Nat × Nat))} {id : Bytes → Nat}
  {start : Nat} (hm : SpellModel sc files id start)

include hi hα hm in
/-- **C65** Exactly when a query is answered, with `K ≥ 1`; what happens does not depend on the schedule. If at least `K` words contain
all n-grams of the last word, there is an answer. Otherwise: if some word has at least α²·n n-grams, where n is the number of n-grams of
the last word, there is an answer; if the longest words lack (at most) one for that, the call hangs; otherwise it panics. -/
theorem C65_exact (hK : 0 < K) {seq : List Bytes} {word : Bytes} (ht : sc.tokenize query = seq ++ [word])
    (hg : sc.grams word ≠ []) (hne : docs ≠ []) :
    let enough := sc.prefixGrams word ≠ [] ∧ K ≤ (containing docs (sc.prefixGrams word)).length
    let need := α * α * (sc.grams word).length
    ((∃ r, PredictReturns (realOps oob) val sc query K α r) ↔ enough ∨ ∃ d ∈ docs, need ≤ d.terms.length) ∧
    (PredictBlocks (realOps oob) val sc query K α ↔
      ¬ enough ∧ (∃ d ∈ docs, need ≤ d.terms.length + 1) ∧ ∀ d ∈ docs, (d.terms.length : ℝ) < need) ∧
    (PredictPanics (realOps oob) val sc query K α ↔ ¬ enough ∧ ∀ d ∈ docs, (d.terms.length : ℝ) + 1 < need) ∧
    ¬ PredictRunsForever (realOps oob) val sc query K α := by
  intro enough need
  obtain ⟨G, LG, hoi⟩ := hi.index
  obtain ⟨L⟩ := hi.lawful
  have hmin := minY_cosine (oob := oob) hα word (hi.grams word ⟨_, ht⟩).2
  have hlen : 1 ≤ (sc.grams word).length := List.length_pos_iff.2 hg
  have hfacts := (RealMetric.cosine (oob := oob) (n := 0) (hα.bound word ⟨_, ht⟩)).facts hα.pos hα.le
    (by omega) (by have := (hi.grams word ⟨_, ht⟩).2; omega)
  obtain ⟨next, score, hn, hsc⟩ := spell_score_exists hi hm val seq
  have key := fates_of (sort := sc.sort) L LG hi.good hi.first hoi hg hne (realOps oob) (α := α) (M := cosineMetric (realOps oob)) (K := K)
    hfacts.minY_le hfacts.minY_maxY (fun h => by
      obtain ⟨h1, h2, _, h4⟩ := C30_terminates_partial L LG hi.good hi.first hoi hi.sort (.of_short (hi.grams word ⟨_, ht⟩).2)
        (hi.grams word ⟨_, ht⟩).1 (oob := oob) hα.pos hα.le hi.small le_rfl (.cosine (hα.bound word ⟨_, ht⟩)) hK h
      exact ⟨h1, h2, h4⟩)
  simp only [hmin] at key
  have c1 : ∀ d : Doc, ⌈need⌉ ≤ (d.terms.length : Int) ↔ need ≤ d.terms.length := fun d => by rw [Int.ceil_le]; push_cast; rfl
  have c2 : ∀ d : Doc, (d.terms.length : Int) < ⌈need⌉ ↔ (d.terms.length : ℝ) < need := fun d => by rw [Int.lt_ceil]; push_cast; rfl
  have c3 : ∀ d : Doc, (d.terms.length : Int) + 1 < ⌈need⌉ ↔ (d.terms.length : ℝ) + 1 < need := fun d => by rw [Int.lt_ceil]; push_cast; rfl
  have c4 : ∀ d : Doc, ⌈need⌉ ≤ (d.terms.length : Int) + 1 ↔ need ≤ (d.terms.length : ℝ) + 1 := fun d => by rw [Int.ceil_le]; push_cast; rfl
  obtain ⟨k1, k2, k3, _⟩ := key
  have k1' : (∃ r, SuggestReturns (suggestCall (realOps oob) (cosineMetric (realOps oob)) sc.ρ sc.sort sc.index (sc.grams word) α K) r) ↔
      ∃ d ∈ docs, need ≤ d.terms.length := by
    rw [k1]; exact exists_congr fun d => and_congr_right fun _ => c1 d
  have k2' : SuggestBlocks (suggestCall (realOps oob) (cosineMetric (realOps oob)) sc.ρ sc.sort sc.index (sc.grams word) α K) ↔
      (∃ d ∈ docs, need ≤ d.terms.length + 1) ∧ ∀ d ∈ docs, (d.terms.length : ℝ) < need := by
    rw [k2]
    constructor
    · rintro ⟨⟨d, hd, e⟩, h⟩
      exact ⟨⟨d, hd, (c4 d).1 (by show ⌈need⌉ ≤ _; exact e.ge)⟩, fun d hd => (c2 d).1 (h d hd)⟩
    · rintro ⟨⟨d, hd, e⟩, h⟩
      refine ⟨⟨d, hd, ?_⟩, fun d hd => (c2 d).2 (h d hd)⟩
      have h3 := (c4 d).2 e
      have h4 := (c2 d).2 (h d hd)
      show _ = ⌈need⌉
      omega
  have k3' : SuggestPanics (suggestCall (realOps oob) (cosineMetric (realOps oob)) sc.ρ sc.sort sc.index (sc.grams word) α K) ↔
      ∀ d ∈ docs, (d.terms.length : ℝ) + 1 < need := by
    rw [k3]; exact forall_congr' fun d => forall_congr' fun _ => c3 d
  obtain ⟨p1, p2, p3, p4, _⟩ := predict_fates_of hi hK ht hn hsc k1' k2' k3'
  exact ⟨p1, p2, p3, p4⟩

end

section
variable {sc : SpellChecker} {docs : List Doc} {query : Bytes} (hi : SpellIndex sc docs query) {oob : Int} {val : LMScore → ℚ}
  {K : Nat} {α : ℚ} (h0 : 1 / 2 ^ 20 ≤ α) (h1 : α ≤ 1) (hsmall : ∀ d ∈ docs, d.terms.length ≤ 32767)
  {files : List (List (List Nat × Nat))} {id : Bytes → Nat} {start : Nat} (hm : SpellModel sc files id start)

include hi h0 h1 hsmall hm in
/-- **C65** The same in float64 arithmetic: `need` is the least number of n-grams that the fuzzy search asks for. -/
theorem C65_float_exact (hK : 0 < K) {seq : List Bytes} {word : Bytes} (ht : sc.tokenize query = seq ++ [word])
    (hg : sc.grams word ≠ []) (hne : docs ≠ []) :
    let enough := sc.prefixGrams word ≠ [] ∧ K ≤ (containing docs (sc.prefixGrams word)).length
    let need := (cosineMetric (f64Ops oob)).minY α (sc.grams word).length
    ((∃ r, PredictReturns (f64Ops oob) val sc query K α r) ↔ enough ∨ ∃ d ∈ docs, need ≤ d.terms.length) ∧
    (PredictBlocks (f64Ops oob) val sc query K α ↔
      ¬ enough ∧ (∃ d ∈ docs, (d.terms.length : Int) + 1 = need) ∧ ∀ d ∈ docs, (d.terms.length : Int) < need) ∧
    (PredictPanics (f64Ops oob) val sc query K α ↔ ¬ enough ∧ ∀ d ∈ docs, (d.terms.length : Int) + 1 < need) ∧
    ¬ PredictRunsForever (f64Ops oob) val sc query K α ∧
    (∀ e, ¬ PredictReturns (f64Ops oob) val sc query K α (.error e)) ∧
    ∀ fate, PredictFails (f64Ops oob) val sc query K α fate ↔
      (fate = .stuck ∧ PredictBlocks (f64Ops oob) val sc query K α) ∨ (fate = .aborted ∧ PredictPanics (f64Ops oob) val sc query K α) := by
  intro enough need
  obtain ⟨G, LG, hoi⟩ := hi.index
  obtain ⟨L⟩ := hi.lawful
  obtain ⟨next, score, hn, hsc⟩ := spell_score_exists hi hm val seq
  obtain ⟨k1, k2, k3, k4⟩ := C30_float_exact L LG hi.good hi.first hoi hg hne hi.sort (hi.grams word ⟨_, ht⟩).2 (hi.grams word ⟨_, ht⟩).1
    h0 h1 hsmall (.cosine (oob := oob)) hK
  obtain ⟨p1, p2, p3, p4, p5⟩ := predict_fates_of (val := val) hi hK ht hn hsc k1 k2 k3
  have hinj : ∀ x ∈ docs, ∀ y ∈ docs, x.id = y.id → x = y := by
    have : (docs.map Doc.id).Nodup := by
      unfold List.Nodup
      rw [List.pairwise_map]; exact hi.good.ids.imp fun h => Nat.ne_of_lt h
    exact List.inj_on_of_nodup_map this
  have herr : ∀ e, ¬ PredictReturns (f64Ops oob) val sc query K α (.error e) := by
    intro e hr
    obtain ⟨_, e', _⟩ := predict_returns hi hsc hK ht hn
      (P := fun fs => (fs.map Candidate.key).Nodup ∧ ∀ c ∈ fs, c.key ∈ docs.map Doc.id) (fun _ h => h) (fun {r} h => by
        obtain ⟨cs, ds, rfl, r1, r2, _, _, r5, _⟩ := C66_float_suggest L LG hi.good hi.first hoi hi.sort (hi.grams word ⟨_, ht⟩).2
          (hi.grams word ⟨_, ht⟩).1 h0 h1 hsmall (.cosine (oob := oob)) hK h
        have ek : cs.map Candidate.key = ds.map Doc.id := keys_ids (r1.imp fun _ _ h => h.1)
        refine ⟨_, rfl, ?_, ?_⟩
        · rw [ek]
          exact r2.map_on fun x hx y hy e => hinj x (r5 x hx).1 y (r5 y hy).1 e
        · intro c hc
          have : c.key ∈ cs.map Candidate.key := List.mem_map_of_mem hc
          rw [ek] at this
          obtain ⟨x, hx, e⟩ := List.mem_map.1 this
          exact List.mem_map.2 ⟨x, (r5 x hx).1, e⟩) hr
    cases e'
  refine ⟨p1, p2, p3, p4, herr, fun fate => ⟨fun h => ?_, ?_⟩⟩
  · rcases p5 k4 herr fate h with ⟨e, h⟩ | ⟨e, h⟩
    · exact .inl ⟨e, p2.2 h⟩
    · exact .inr ⟨e, p3.2 h⟩
  · rintro (⟨rfl, h⟩ | ⟨rfl, h⟩)
    · cases h with
      | auto a b c => exact .auto a b (.blocks c)
      | fuzzy a b c d e => exact .fuzzy a b c d (.blocks e)
    · cases h with
      | auto a b c =>
        exfalso
        obtain ⟨rfl, rfl⟩ := last_same ht a
        rw [hn] at b; cases b
        exact (lm_terminates hi hsc hK word ⟨_, ht⟩).1 c
      | fuzzy a b c d e =>
        obtain ⟨rfl, rfl⟩ := last_same ht a
        refine .fuzzy a b c d ?_
        cases e with
        | start hz he => exact .own hz he
        | run _ hr hp => exact absurd (k4 _ hr) hp

variable {pf : Bytes → Except Err F64} {query' raw : Bytes} {kvs : List (Bytes × Bytes)} (hq : PctEncoded false query query')
  (hsq : PathSegment query) (hform : FormEncoded kvs raw)

include hi h0 h1 hsmall hm hq hsq hform in
/-- **C94** What happens to a request "GET /predict/<query>/?topK=…&similarity=…" to the spell checker server, exactly, and whatever the
other requests are: it is answered if at least `K` words contain all n-grams of the last word of the query, or some word has `need`
n-grams; otherwise it hangs for ever if the longest words have one less; otherwise the connection is closed without an answer. It
never ends the process. -/
theorem C94_predict_fate (hK : (fieldValue kvs "topK".toUTF8.toList = [] ∧ K = 5) ∨
      (IsDecimal (fieldValue kvs "topK".toUTF8.toList) K ∧ 1 ≤ K ∧ K < 2 ^ 63))
    (hα : (fieldValue kvs "similarity".toUTF8.toList = [] ∧ α = 1 / 2) ∨
      (fieldValue kvs "similarity".toUTF8.toList ≠ [] ∧ pf (fieldValue kvs "similarity".toUTF8.toList) = .ok (.num α)))
    {seq : List Bytes} {word : Bytes} (ht : sc.tokenize query = seq ++ [word]) (hg : sc.grams word ≠ []) (hne : docs ≠ []) :
    let fate := SpellFate (f64Ops oob) (fun x => x) val sc pf .get (predictTarget query' raw)
    let enough := sc.prefixGrams word ≠ [] ∧ K ≤ (containing docs (sc.prefixGrams word)).length
    let need := (cosineMetric (f64Ops oob)).minY α (sc.grams word).length
    ((∃ a, fate (.answered a)) ↔ enough ∨ ∃ d ∈ docs, need ≤ d.terms.length) ∧
    (fate .stuck ↔ ¬ enough ∧ (∃ d ∈ docs, (d.terms.length : Int) + 1 = need) ∧ ∀ d ∈ docs, (d.terms.length : Int) < need) ∧
    (fate .aborted ↔ ¬ enough ∧ ∀ d ∈ docs, (d.terms.length : Int) + 1 < need) ∧
    ¬ fate .fatal := by
  intro fate enough need
  have hK1 : 0 < K := by rcases hK with ⟨_, rfl⟩ | ⟨_, h, _⟩; exacts [by decide, h]
  have hK' : (fieldValue kvs "topK".toUTF8.toList = [] ∧ K = 5) ∨ (IsDecimal (fieldValue kvs "topK".toUTF8.toList) K ∧ K < 2 ^ 63) :=
    hK.imp (fun h => h) fun h => ⟨h.1, h.2.2⟩
  have hargs := predict_config (pf := pf) hform hK' hα (le_trans (by norm_num) h0) h1
  obtain ⟨path, g1, g2⟩ := C90_request hq hsq (form_plain hform)
  obtain ⟨p1, p2, p3, _, p5, p6⟩ := C65_float_exact (oob := oob) (val := val) hi h0 h1 hsmall hm hK1 ht hg hne
  have hback : ∀ f, fate f ↔ (∃ a, f = .answered a ∧ SpellAnswered (f64Ops oob) (fun x => x) val sc pf .get (predictTarget query' raw) a) ∨
      PredictFails (f64Ops oob) val sc query K α f := by
    intro f
    constructor
    · intro h
      cases h with
      | answered ha => exact .inl ⟨_, rfl, ha⟩
      | predict e1 e2 e3 e4 =>
        rw [g1] at e1; cases e1
        rw [g2] at e2; cases e2
        rw [hargs] at e3; cases e3
        exact .inr e4
      | predictNaN e1 e2 e3 e4 =>
        rw [g1] at e1; cases e1
        rw [hargs] at e3; cases e3
    · rintro (⟨a, rfl, ha⟩ | h)
      · exact .answered ha
      · exact .predict g1 g2 hargs h
  refine ⟨?_, ?_, ?_, ?_⟩
  · rw [← p1]
    constructor
    · rintro ⟨a, ha⟩
      rcases (hback _).1 ha with ⟨a', e, hh⟩ | hh
      · obtain ⟨resp, hr, _⟩ := (answered_predict hq hsq hform).1 hh
        cases hr with
        | bad g | failedNaN g | okNaN g => rw [hargs] at g; cases g
        | failed g h | ok g h =>
          rw [hargs] at g; cases g
          exact ⟨_, h⟩
      · rcases (p6 _).1 hh with ⟨e, _⟩ | ⟨e, _⟩ <;> cases e
    · rintro ⟨r, hr⟩
      cases r with
      | error e => exact absurd hr (p5 e)
      | ok ws => exact ⟨_, .answered ((answered_predict hq hsq hform).2 ⟨_, .ok hargs hr, rfl⟩)⟩
  · rw [← p2]
    constructor
    · intro h
      rcases (hback _).1 h with ⟨_, h, _⟩ | h
      · cases h
      · rcases (p6 _).1 h with ⟨_, h⟩ | ⟨e, _⟩
        · exact h
        · cases e
    · exact fun h => (hback _).2 (.inr ((p6 _).2 (.inl ⟨rfl, h⟩)))
  · rw [← p3]
    constructor
    · intro h
      rcases (hback _).1 h with ⟨_, h, _⟩ | h
      · cases h
      · rcases (p6 _).1 h with ⟨e, _⟩ | ⟨_, h⟩
        · cases e
        · exact h
    · exact fun h => (hback _).2 (.inr ((p6 _).2 (.inr ⟨rfl, h⟩)))
  · intro h
    rcases (hback _).1 h with ⟨_, h, _⟩ | h
    · cases h
    · rcases (p6 _).1 h with ⟨e, _⟩ | ⟨e, _⟩ <;> cases e

end
/-- **C94** The example spell checker of C65 (its longest word has six n-grams), with similarity 1: the request for a word with one
n-gram is answered, the one for a word with seven hangs for ever, the one for a word with eight is closed without an answer. -/
theorem C94_predict_fate_example : ∃ sc : SpellChecker, ∀ (val : LMScore → ℚ) (pf : Bytes → Except Err F64),
    pf (utf8 "1".toList) = .ok (.num 1) →
      let fate := fun t : String => SpellFate (f64Ops 0) (fun x => x) val sc pf .get (utf8 t.toList)
      (∃ a, fate "/predict/%09/?similarity=1" (.answered a)) ∧
      (∀ f, fate "/predict/%08/?similarity=1" f ↔ f = .stuck) ∧
      (∀ f, fate "/predict/%0A/?similarity=1" f ↔ f = .aborted) := by
  obtain ⟨mk, h⟩ := exampleChecker_ok
  obtain ⟨hi, hm, hpg, hg, ht, hd, _, _⟩ := h fun i => [UInt8.ofNat i]
  refine ⟨mk fun i => [UInt8.ofNat i], fun val pf hpf => ?_⟩
  have l : ∀ s : String, (∀ c ∈ utf8 s.toList, Unreserved c) → PctEncoded true (utf8 s.toList) (utf8 s.toList) := fun s h => enc_literal h
  have hform : FormEncoded [(utf8 "similarity".toList, utf8 "1".toList)] (utf8 "similarity=1".toList) := by
    have h := FormEncoded.last (l "similarity" (by unfold Unreserved; decide +kernel)) (l "1" (by unfold Unreserved; decide +kernel))
    have e : utf8 "similarity=1".toList = utf8 "similarity".toList ++ 61 :: utf8 "1".toList := by decide +kernel
    rw [e]
    exact h
  have es : fieldValue [(utf8 "similarity".toList, utf8 "1".toList)] "similarity".toUTF8.toList = utf8 "1".toList := by decide +kernel
  have key := fun (c : UInt8) (q' : Bytes) (hq : PctEncoded false [c] q') h1 h2 =>
    C94_predict_fate (oob := 0) (val := val) (pf := pf) (K := 5) (α := 1) (hi [c]) (by norm_num) (by norm_num) (by decide) hm hq h1 hform
      (.inl ⟨by decide +kernel, rfl⟩) (.inr ⟨by rw [es]; decide +kernel, by rw [es]; exact hpf⟩) (seq := []) (word := [c]) (by rw [ht]; rfl)
      (by rw [hg]; exact h2) (by decide)
  have hex : ∀ (c b : UInt8) (y : Nat), HexDigit b y → c.toNat = 16 * 0 + y → PctEncoded false [c] [37, 48, b] := fun c b y hb e =>
    .pct (x := 0) (y := y) (.inl ⟨by decide, by decide⟩) hb e .nil
  simp only [hpg, hg] at key
  have e9 : utf8 "/predict/%09/?similarity=1".toList = predictTarget [37, 48, 57] (utf8 "similarity=1".toList) := by decide +kernel
  have e8 : utf8 "/predict/%08/?similarity=1".toList = predictTarget [37, 48, 56] (utf8 "similarity=1".toList) := by decide +kernel
  have eA : utf8 "/predict/%0A/?similarity=1".toList = predictTarget [37, 48, 65] (utf8 "similarity=1".toList) := by decide +kernel
  refine ⟨?_, fun f => ?_, fun f => ?_⟩
  · beta_reduce; rw [e9]
    obtain ⟨k, _⟩ := key 9 _ (hex 9 57 9 (.inl ⟨by decide, by decide⟩) (by decide)) (by unfold PathSegment; decide) (by decide)
    exact k.2 (.inr ⟨⟨1, ["a"]⟩, by decide, by decide +kernel⟩)
  · beta_reduce; rw [e8]
    obtain ⟨k1, k2, k3, k4⟩ := key 8 _ (hex 8 56 8 (.inl ⟨by decide, by decide⟩) (by decide)) (by unfold PathSegment; decide) (by decide)
    constructor
    · intro hf
      cases f with
      | answered a =>
        exfalso
        have := k1.1 ⟨a, hf⟩
        revert this; decide +kernel
      | stuck => rfl
      | aborted =>
        exfalso
        have := k3.1 hf
        revert this; decide +kernel
      | fatal => exact absurd hf k4
    · rintro rfl
      exact k2.2 (by decide +kernel)
  · beta_reduce; rw [eA]
    obtain ⟨k1, k2, k3, k4⟩ := key 10 _ (hex 10 65 10 (.inr ⟨by decide, by decide, by decide⟩) (by decide)) (by unfold PathSegment; decide) (by decide)
    constructor
    · intro hf
      cases f with
      | answered a =>
        exfalso
        have := k1.1 ⟨a, hf⟩
        revert this; decide +kernel
      | stuck =>
        exfalso
        have := k2.1 hf
        revert this; decide +kernel
      | aborted => rfl
      | fatal => exact absurd hf k4
    · rintro rfl
      exact k3.2 (by decide +kernel)

end Verif.Props
