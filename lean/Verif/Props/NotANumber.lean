import Verif.Props.Serve
import Verif.Props.SuggestFloat
/-!
The similarity NaN, which every validation accepts (C32, C55): property theorems for C30, C94.

`sendLoop64` (Verif/Model/Suggest.lean) is the loop of `Suggest` over the lengths with the 64-bit integers of Go; `Endless` — it never
ends. `nanOps` (Verif/Model/Metric.lean) — float64 arithmetic with NaN; `nanInt` — the conversion `int(NaN)`, on amd64 -2^63.
-/
namespace Verif.Props
open Verif Spec Verif.WordSearch Verif.Wire Verif.Serve

theorem wrap64_least (x : Int) : -2 ^ 63 ≤ wrap64 x := by
  unfold wrap64
  have := Int.emod_nonneg (x + 2 ^ 63) (by norm_num : (2 ^ 64 : Int) ≠ 0)
  omega

theorem wrap64_small {x : Int} (h0 : -2 ^ 63 ≤ x) (h1 : x < 2 ^ 63) : wrap64 x = x := by
  unfold wrap64
  rw [Int.emod_eq_of_lt (by omega) (by omega)]
  omega

/-- A loop down to the smallest integer never ends. -/
theorem loop_endless (bMax : Int) : ∀ (n : Nat) (i j : Int), -2 ^ 63 ≤ i → sendLoop64 (-2 ^ 63) bMax n i j = none
  | 0, _, _, _ => rfl
  | n + 1, i, j, h => by
    unfold sendLoop64
    rw [if_pos (.inl h), loop_endless bMax n _ _ (wrap64_least _)]
    rfl

/-- Within bounds the loop ends, with the values of the loop over the integers. -/
theorem loop_ends (bMin bMax : Int) : ∀ (k : Nat) (i j : Int), (i - bMin + 1) ≤ k → (bMax - j + 1) ≤ k → -2 ^ 63 + k ≤ i → i < 2 ^ 63 →
    -2 ^ 63 ≤ j → j + k < 2 ^ 63 → ∀ n, k < n → sendLoop64 bMin bMax n i j = some (sendLoop bMin bMax i j)
  | k, i, j, h1, h2, h3, h4, h5, h6, 0, hn => by omega
  | 0, i, j, h1, h2, h3, h4, h5, h6, n + 1, hn => by
    unfold sendLoop64 sendLoop
    rw [if_neg (by omega), if_neg (by omega)]
  | k + 1, i, j, h1, h2, h3, h4, h5, h6, n + 1, hn => by
    unfold sendLoop64 sendLoop
    by_cases h : i ≥ bMin ∨ j ≤ bMax
    · rw [if_pos h, if_pos h, wrap64_small (by omega) (by omega), wrap64_small (by omega) (by omega),
        loop_ends bMin bMax k (i - 1) (j + 1) (by omega) (by omega) (by omega) (by omega) (by omega) (by omega) n (by omega)]
      rfl
    · rw [if_neg h, if_neg h]

section
variable {S : Type} [LinearOrder S] [Inhabited S]

/-- **C30** The loop of `Suggest` over the lengths ends, and no 64-bit operation in it overflows, whenever the smallest length is not
below -2^61 and there are not more than 2^61 lengths and n-grams: then the search works on exactly the values of the model. -/
theorem C30_loop_ends {Env : Type} (c : SConf S Env) (h0 : -2 ^ 61 ≤ c.bMin) (h1 : c.indices.size ≤ 2 ^ 61) (h2 : c.sizeA ≤ 2 ^ 61) :
    ∃ n0, ∀ n, n0 ≤ n → sendLoop64 c.bMin c.bMax n c.sizeA (c.sizeA + 1) = some (sendLoop c.bMin c.bMax c.sizeA (c.sizeA + 1)) := by
  have hb : c.bMax < c.indices.size := by
    unfold SConf.bMax
    split <;> omega
  have h1' : (c.indices.size : Int) ≤ 2 ^ 61 := by exact_mod_cast h1
  have h2' : (c.sizeA : Int) ≤ 2 ^ 61 := by exact_mod_cast h2
  refine ⟨2 ^ 62 + 2, fun n hn => loop_ends _ _ (2 ^ 62 + 1) _ _ ?_ ?_ ?_ ?_ ?_ ?_ n (by omega)⟩ <;> push_cast <;> omega

/-- **C30** … which is so for every similarity that is a number in (0, 1] and every metric. -/
theorem C30_number_ends {oob : Int} {M : Metric ℚ} {sim : Nat → Nat → Nat → ℝ} (hM : F64Metric oob M sim) {ρ : Roaring}
    {sort : List (PList ρ) → List (PList ρ)} {oi : OpenIndex} {q : List String} (hq : q ≠ []) (hq' : q.length ≤ 65535)
    (hsize : oi.size ≤ 2 ^ 61) {α : ℚ} (h0 : 0 < α) (h1 : α ≤ 1) (topK : Int) :
    ¬ (suggestCall (f64Ops oob) M ρ sort oi q α topK).Endless := by
  have hpos : 1 ≤ q.length := List.length_pos_iff.2 hq
  have h := (hM.facts hpos hq').minY_pos α h0 h1
  obtain ⟨n, hn⟩ := C30_loop_ends (suggestCall (f64Ops oob) M ρ sort oi q α topK)
    (by show -2 ^ 61 ≤ M.minY α q.length; omega) hsize (by show q.length ≤ 2 ^ 61; omega)
  intro he
  have := (he n).symm.trans (hn n (le_refl _))
  cases this

/-- The three metrics whose bounds depend on the similarity. -/
theorem nan_bounds (F : FloatOps S) (hF : F.nanInt = -2 ^ 63) {m : MetricName} (hm : m = .jaccard ∨ m = .cosine ∨ m = .dice)
    {ρ : Roaring} {sort : List (PList ρ) → List (PList ρ)} {oi : OpenIndex} {q : List String} {topK : Int} :
    (nanCall F m.metric ρ sort oi q topK).bMin = -2 ^ 63 ∧ (nanCall F m.metric ρ sort oi q topK).bMax = -2 ^ 63 := by
  have e : (m.metric (nanOps F)).minY ⊤ (q.length : Int) = F.nanInt ∧ (m.metric (nanOps F)).maxY ⊤ (q.length : Int) = F.nanInt := by
    rcases hm with rfl | rfl | rfl <;> exact ⟨rfl, rfl⟩
  constructor
  · exact e.1.trans hF
  · show (if (m.metric (nanOps F)).maxY ⊤ (q.length : Int) ≥ (oi.size : Int) then (oi.size : Int) - 1
      else (m.metric (nanOps F)).maxY ⊤ (q.length : Int)) = _
    rw [e.2, hF, if_neg (by omega)]

/-- **C30** is false for the similarity NaN, where `int(NaN)` is -2^63: with the metrics Jaccard, Cosine and Dice the search never ends,
whatever the index and the query. -/
theorem C30_nan_endless (F : FloatOps S) (hF : F.nanInt = -2 ^ 63) {m : MetricName} (hm : m = .jaccard ∨ m = .cosine ∨ m = .dice)
    {ρ : Roaring} {sort : List (PList ρ) → List (PList ρ)} {oi : OpenIndex} {q : List String} {topK : Int} :
    (nanCall F m.metric ρ sort oi q topK).Endless := by
  intro n
  rw [(nan_bounds F hF hm).1]
  refine loop_endless _ n _ _ ?_
  have : (0 : Int) ≤ (nanCall F m.metric ρ sort oi q topK).sizeA := Int.natCast_nonneg _
  omega

example : (f64Ops (-2 ^ 63)).nanInt = -2 ^ 63 := rfl

/-- **C30** Where `int(NaN)` is 0 (arm64) it ends. -/
theorem C30_nan_zero (F : FloatOps S) (hF : F.nanInt = 0) {m : MetricName} {ρ : Roaring}
    {sort : List (PList ρ) → List (PList ρ)} {oi : OpenIndex} {q : List String} {topK : Int} (hsize : oi.size ≤ 2 ^ 61)
    (hq : q.length ≤ 2 ^ 61) : ¬ (nanCall F m.metric ρ sort oi q topK).Endless := by
  have h : 0 ≤ (m.metric (nanOps F)).minY ⊤ (q.length : Int) := by
    cases m
    · exact le_of_eq hF.symm
    · exact le_of_eq hF.symm
    · exact le_of_eq hF.symm
    · exact Int.natCast_nonneg _
    · exact (by decide : (0 : Int) ≤ 1)
  obtain ⟨n, hn⟩ := C30_loop_ends (nanCall F m.metric ρ sort oi q topK)
    (by show -2 ^ 61 ≤ (m.metric (nanOps F)).minY ⊤ (q.length : Int); omega) hsize hq
  intro he
  have := (he n).symm.trans (hn n (le_refl _))
  cases this

end

/-! ### The servers -/

section
variable {W : Type} {K : Server W} {client : Method → Bytes → Prop}

/-- A request that cannot be answered or aborted waits for ever. -/
theorem waits_forever {w : W} {m : Method} {t : Bytes} (h : ∀ f, K.fate w m t f → f = .stuck ∨ f = .fatal) {s s' : State W}
    (hst : Steps K client s s') {i : Nat} (hi : s.conns[i]? = some (m, t, .working w)) :
    ∃ c, s'.conns[i]? = some (m, t, c) ∧ (c = .working w ∨ c = .stuck ∨ c = .cut) := by
  induction hst with
  | refl => exact ⟨_, hi, .inl rfl⟩
  | @tail s1 s2 _ hstep ih =>
    obtain ⟨c, hc, hcase⟩ := ih
    have hlt : i < s1.conns.length := (List.getElem?_eq_some_iff.1 hc).1
    have hput : ∀ (j : Nat) (m' : Method) (t' : Bytes) (c' x : Conn W), s1.conns[j]? = some (m', t', c') →
        (j = i → m' = m → t' = t → c' = c → x = .working w ∨ x = .stuck ∨ x = .cut) →
        ∃ c, (s1.put j m' t' x).conns[i]? = some (m, t, c) ∧ (c = .working w ∨ c = .stuck ∨ c = .cut) := by
      intro j m' t' c' x hj hx
      by_cases he : j = i
      · subst he
        rw [hj] at hc
        cases hc
        refine ⟨x, ?_, hx rfl rfl rfl rfl⟩
        show (s1.conns.set j _)[j]? = _
        rw [List.getElem?_set_self hlt]
      · refine ⟨c, ?_, hcase⟩
        show (s1.conns.set j _)[i]? = _
        rw [List.getElem?_set_ne he]
        exact hc
    have hdead : ∃ c, s1.dead.conns[i]? = some (m, t, c) ∧ (c = .working w ∨ c = .stuck ∨ c = .cut) := by
      refine ⟨if c.open then .cut else c, ?_, ?_⟩
      · show (s1.conns.map _)[i]? = _
        rw [List.getElem?_map, hc]
        rfl
      · split
        · exact .inr (.inr rfl)
        · exact hcase
    cases hstep with
    | arrive =>
      refine ⟨c, ?_, hcase⟩
      show (s1.conns ++ _)[i]? = _
      rw [List.getElem?_append_left hlt]
      exact hc
    | begin _ hj =>
      refine hput _ _ _ _ _ hj ?_
      rintro rfl rfl rfl rfl
      rcases hcase with h | h | h <;> cases h
    | answer _ hj hf =>
      refine hput _ _ _ _ _ hj ?_
      rintro rfl rfl rfl rfl
      rcases hcase with h' | h' | h' <;> cases h'
      rcases h _ hf with h | h <;> cases h
    | abort _ hj hf =>
      refine hput _ _ _ _ _ hj ?_
      rintro rfl rfl rfl rfl
      rcases hcase with h' | h' | h' <;> cases h'
      rcases h _ hf with h | h <;> cases h
    | hang _ hj hf => exact hput _ _ _ _ _ hj fun _ _ _ _ => .inr (.inl rfl)
    | crash => exact hdead
    | publish => exact ⟨c, hc, hcase⟩
    | race => exact hdead

end

section
variable {ρ : Roaring} {sort : List (PList ρ) → List (PList ρ)} {F : FloatOps ℚ} {pf : Bytes → Except Err F64} {num : ℚ → Bytes}
  {dict query dict' query' raw : Bytes} {kvs : List (Bytes × Bytes)}

/-- **C94** is false for the similarity NaN, where `int(NaN)` is -2^63 (amd64): a request
"GET /suggest/<dictionary>/<query>/?metric=Cosine&similarity=NaN" (or Jaccard, Dice) for a published dictionary and a query with an n-gram
is accepted and never answered: the request waits as long as the process runs, and its loop occupies the processor. -/
theorem C94_nan_hangs (hF : F.nanInt = -2 ^ 63) (hd : PctEncoded false dict dict') (hsd : PathSegment dict)
    (hq : PctEncoded false query query') (hsq : PathSegment query) (hform : FormEncoded kvs raw)
    (hm : fieldValue kvs "metric".toUTF8.toList ∈ ["Jaccard", "Cosine", "Dice"].map fun n => utf8 n.toList)
    (hk : fieldValue kvs "topK".toUTF8.toList = []) (hs : fieldValue kvs "similarity".toUTF8.toList ≠ [])
    (hnan : pf (fieldValue kvs "similarity".toUTF8.toList) = .ok .nan)
    {w : World} {p : Published} {toks : List Bytes} (hpub : w.published dict = some p) (htok : p.suggestTok query = .ok toks)
    (hne : toks ≠ []) {reload : World → World → Prop} {client : Method → Bytes → Prop} {s s' : State World} {i : Nat}
    (hi : s.conns[i]? = some (.get, searchTarget "suggest" dict' query' raw, .working w))
    (hst : Steps (suggestServer F ρ sort pf num reload) client s s') :
    RequestFate F ρ sort pf num w .get (searchTarget "suggest" dict' query' raw) .stuck ∧
    ∃ c, s'.conns[i]? = some (.get, searchTarget "suggest" dict' query' raw, c) ∧ (c = .working w ∨ c = .stuck ∨ c = .cut) := by
  obtain ⟨⟨path, h1, h2⟩, _⟩ := C88_request hd hsd hq hsq (form_plain hform)
  obtain ⟨m, hm1, hm2⟩ : ∃ m, metricOf (fieldValue kvs "metric".toUTF8.toList) = some m ∧ (m = .jaccard ∨ m = .cosine ∨ m = .dice) := by
    simp only [List.map_cons, List.map_nil, List.mem_cons, List.not_mem_nil, or_false] at hm
    rcases hm with h | h | h
    · exact ⟨.jaccard, by rw [h]; decide +kernel, .inl rfl⟩
    · exact ⟨.cosine, by rw [h]; decide +kernel, .inr (.inl rfl)⟩
    · exact ⟨.dice, by rw [h]; decide +kernel, .inr (.inr rfl)⟩
  have hconf : buildSearchConfig pf (formValue raw) (goString query) = .ok ⟨goString query, 5, m, .nan⟩ := by
    refine C55_suggest_nan (by rw [C88_form hform]; exact hs) (by rw [C88_form hform]; exact hnan)
      (by rw [C88_form hform]; exact hm1) (by rw [C88_form hform, hk]; exact C55_topK.2 (.inl ⟨rfl, rfl⟩)) (by decide)
  have hend : (nanCall F m.metric ρ sort p.index (toks.map goString) 5).Endless := C30_nan_endless F hF hm2
  have hstart : ∃ st, (nanCall F m.metric ρ sort p.index (toks.map goString) 5).start = .ok st := by
    unfold SConf.start
    obtain ⟨e1, e2⟩ := nan_bounds F hF hm2 (ρ := ρ) (sort := sort) (oi := p.index) (q := toks.map goString) (topK := 5)
    rw [e1, e2, if_neg (by norm_num)]
    exact ⟨_, rfl⟩
  refine ⟨.suggestEndless h1 h2 hconf rfl hpub htok hne hend, waits_forever ?_ hst hi⟩
  intro f hf
  have hf : RequestFate F ρ sort pf num w .get (searchTarget "suggest" dict' query' raw) f := hf
  cases hf with
  | answered ha =>
    exfalso
    have := (answered_suggest hd hsd hq hsq hform).1 ha
    cases this with
    | bad g => rw [hconf] at g; cases g
    | unknown _ g => rw [hpub] at g; cases g
    | failed g g' | ok g g' =>
      rw [hconf] at g; cases g
      cases g'
    | failedNaN g _ g3 g4 | okNaN g _ g3 g4 =>
      rw [hconf] at g; cases g
      rw [hpub] at g3; cases g3
      rcases g4 with ⟨e, g4, _⟩ | ⟨q, cs, g4, g5, _⟩
      · rw [htok] at g4; cases g4
      · rw [htok] at g4; cases g4
        exact g5.elim (fun e => hne e) (fun e => e hend)
  | reindexed g1 g2 | completeToken g1 g2 | complete g1 g2 =>
    rw [h1] at g1; cases g1
    rw [h2] at g2; cases g2
  | suggestToken g1 g2 _ g4 g5 =>
    rw [h1] at g1; cases g1
    rw [h2] at g2; cases g2
    rw [hpub] at g4; cases g4
    rw [htok] at g5; cases g5
  | suggest g1 g2 g3 g4 =>
    rw [h1] at g1; cases g1
    rw [h2] at g2; cases g2
    rw [hconf] at g3; cases g3
    cases g4
  | suggestNaN g1 g2 g3 _ g5 g6 g7 =>
    rw [h1] at g1; cases g1
    rw [h2] at g2; cases g2
    rw [hconf] at g3; cases g3
    rw [hpub] at g5; cases g5
    rw [htok] at g6; cases g6
    cases g7 with
    | own _ he =>
      obtain ⟨st, h⟩ := hstart
      rw [h] at he; cases he
    | blocks => exact .inl rfl
    | worker => exact .inr rfl
  | suggestEndless => exact .inl rfl

end

section
variable {S : Type} [LinearOrder S] [Inhabited S] {sc : SpellChecker} {docs : List Doc} {files : List (List (List Nat × Nat))}
  {id : Bytes → Nat} {start : Nat} {F : FloatOps S} {real : ℚ → S} {val : LMScore → S} {pf : Bytes → Except Err F64}
  {query query' raw : Bytes} {kvs : List (Bytes × Bytes)}

/-- **C94** The same for the spell checker server: a request "GET /predict/<query>/?similarity=NaN" for a query whose last word has an
n-gram and is the beginning of fewer than five words is accepted and never answered. -/
theorem C94_predict_nan_hangs (hF : F.nanInt = -2 ^ 63) (hi : SpellIndex sc docs query) (hm : SpellModel sc files id start)
    (hq : PctEncoded false query query') (hsq : PathSegment query) (hform : FormEncoded kvs raw)
    (hk : fieldValue kvs "topK".toUTF8.toList = []) (hs : fieldValue kvs "similarity".toUTF8.toList ≠ [])
    (hnan : pf (fieldValue kvs "similarity".toUTF8.toList) = .ok .nan)
    {seq : List Bytes} {word : Bytes} (ht : sc.tokenize query = seq ++ [word]) (hne : sc.grams word ≠ [])
    (hfew : (containing docs (sc.prefixGrams word)).length < 5) {client : Method → Bytes → Prop} {s s' : State Unit} {i : Nat}
    (hconn : s.conns[i]? = some (.get, predictTarget query' raw, .working ()))
    (hst : Steps (spellServer F real val sc pf) client s s') :
    SpellFate F real val sc pf .get (predictTarget query' raw) .stuck ∧
    ∃ c, s'.conns[i]? = some (.get, predictTarget query' raw, c) ∧ (c = .working () ∨ c = .stuck ∨ c = .cut) := by
  obtain ⟨path, h1, h2⟩ := C90_request hq hsq (form_plain hform)
  have hargs : predictArgs pf (formValue raw) = .ok (5, .nan) := by
    unfold predictArgs
    rw [C88_form hform, C88_form hform, hk, C55_topK.2 (.inl ⟨rfl, rfl⟩), C55_similarity.2 (.inr ⟨hs, hnan, .inl rfl⟩)]
  obtain ⟨next, score, hn, hsc⟩ := spell_score_exists hi hm (fun s => (val s : WithTop S)) seq
  have hend : (nanCall F cosineMetric sc.ρ sc.sort sc.index (sc.grams word) 5).Endless :=
    C30_nan_endless F hF (m := .cosine) (.inr (.inl rfl))
  have hlw : LastWord sc query word := ⟨seq, ht⟩
  obtain ⟨_, t2, cs, t3⟩ := lm_terminates hi hsc (K := 5) (by decide) word hlw
  have few : ∀ cs, AutocompleteReturns (lmAutocompleteCall sc.ρ sc.sort sc.index (sc.prefixGrams word)
      (lmScore (fun s => (val s : WithTop S)) next) 5) (.ok cs) → cs.length < 5 := fun cs h => lm_few hi hsc hlw (by decide) hfew h
  have words : ∀ {seq' word'}, sc.tokenize query = seq' ++ [word'] → seq' = seq ∧ word' = word := by
    intro seq' word' h
    have := ht.symm.trans h
    obtain ⟨e1, e2⟩ := List.append_inj' this rfl
    simp only [List.cons.injEq, and_true] at e2
    exact ⟨e1.symm, e2.symm⟩
  have never : ∀ r, ¬ PredictReturnsNaN F val sc query 5 r := by
    rintro r ⟨hr, h⟩
    have ok : ∀ e, ¬ AutocompleteReturns (lmAutocompleteCall sc.ρ sc.sort sc.index (sc.prefixGrams word)
        (lmScore (fun s => (val s : WithTop S)) next) 5) (.error e) := by
      intro e he
      by_cases hw : sc.prefixGrams word = []
      · have := lm_autocomplete_empty (K := 5) hw he
        cases this
      · have := lm_autocomplete hi hsc hlw (K := 5) (by decide) hw he
        cases this
    rcases h seq word ht hne hend with ⟨e, g, _⟩ | ⟨next', g, cs', g1, g2⟩
    · rw [hn] at g; cases g
    · rw [hn] at g; cases g
      cases cs' with
      | error e => exact ok e g1
      | ok cs' =>
        have := few cs' g1
        have := g2.1
        omega
  refine ⟨.predictNaN h1 h2 hargs (.endless ht hn t3 (by exact_mod_cast few cs t3) hne hend), waits_forever ?_ hst hconn⟩
  intro f hf
  have hf : SpellFate F real val sc pf .get (predictTarget query' raw) f := hf
  cases hf with
  | answered ha =>
    exfalso
    obtain ⟨resp, hr, _⟩ := (answered_predict hq hsq hform).1 ha
    cases hr with
    | bad g | failed g | ok g => rw [hargs] at g; cases g
    | failedNaN g g' | okNaN g g' => rw [hargs] at g; cases g; exact never _ g'
  | predict g1 g2 g3 =>
    rw [h1] at g1; cases g1
    rw [h2] at g2; cases g2
    rw [hargs] at g3; cases g3
  | predictNaN g1 g2 g3 g4 =>
    rw [h1] at g1; cases g1
    rw [h2] at g2; cases g2
    rw [hargs] at g3; cases g3
    cases g4 with
    | auto a b c =>
      obtain ⟨e1, e2⟩ := words a
      subst e1; subst e2
      rw [hn] at b; cases b
      cases c with
      | own he =>
        obtain ⟨st, h⟩ := lm_start (sc := sc) (val := fun s => (val s : WithTop S)) 5 _ next
        have := he.symm.trans h
        cases this
      | blocks => exact .inl rfl
      | worker => exact .inr rfl
    | fuzzy a b c d e =>
      obtain ⟨e1, e2⟩ := words a
      cases e1; cases e2
      cases e with
      | own _ he =>
        exfalso
        unfold SConf.start at he
        obtain ⟨e1, e2⟩ := nan_bounds F hF (m := .cosine) (.inr (.inl rfl)) (ρ := sc.ρ) (sort := sc.sort) (oi := sc.index)
          (q := sc.grams _) (topK := 5)
        have e1 : (nanCall F cosineMetric sc.ρ sc.sort sc.index (sc.grams _) 5).bMin = -2 ^ 63 := e1
        have e2 : (nanCall F cosineMetric sc.ρ sc.sort sc.index (sc.grams _) 5).bMax = -2 ^ 63 := e2
        rw [e1, e2, if_neg (by norm_num)] at he
        cases he
      | blocks => exact .inl rfl
      | worker => exact .inr rfl
    | finish g => exact absurd g (never _)
    | endless => exact .inl rfl

end
end Verif.Props
