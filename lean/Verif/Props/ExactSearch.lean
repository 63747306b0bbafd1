import Verif.Props.ServeFate
/-
C29, C30, C67, C88, C94 for the metric "Exact", in any arithmetic (also float64), from the documents to the HTTP answer.
-/
namespace Verif.Props
open Verif Spec Verif.WordSearch Verif.Wire Verif.Serve

section
variable {S : Type} [LinearOrder S] [Inhabited S] {F : FloatOps S} {one : S} (hone : F.sub (F.ofInt 1) (F.ofInt 0) = one)
  {ρ : Roaring} (L : ρ.Lawful) {G : Gob} (LG : G.Lawful) {docs : List Doc} (hd : GoodDocs docs)
  (hf : FirstNonempty docs) {oi : OpenIndex} (hoi : IndexOf ρ G docs oi)
  {sort : List (PList ρ) → List (PList ρ)} (hs : ∀ r, (sort r).Perm r) {q : List String} (hq : FewCommon docs q)
  (hqd : q.Nodup)

omit [Inhabited S] in
include hone in
/-- The laws for the exact metric, in any arithmetic. -/
theorem exact_laws_any {Env : Type} {c : SConf S Env} (hF : c.F = F) (hM : c.metric = exactMetric F) (h1 : c.similarity ≤ one) (ha : 1 ≤ c.sizeA) :
    MetricLaws c (fun b o => 1 ≤ b ∧ b = c.sizeA ∧ o = c.sizeA) := by
  have hsc : ∀ b o : Nat, c.score b o = one := by
    intro b o; simp only [SConf.score, hF, hM, metricScore, exactMetric, hone]
  refine ⟨⟨?_, ?_⟩, fun b o hb => hb.1, ?_, ?_, ?_, ?_⟩
  · simp only [SConf.bMin, hM, exactMetric]; omega
  · intro α hα b b1 b2
    simp only [SConf.thr, hM, exactMetric]; omega
  · intro b o b1 b2 o1 o2 hacc
    simp only [hM, exactMetric]; omega
  · intro b o b1 b2 o1 o2 hacc
    rw [hsc]; exact h1
  · intro α hα b o b1 b2 o1 o2 hacc hle
    simp only [SConf.thr, hM, exactMetric]; omega
  · intro α hα b o b1 b2 o1 o2 hthr hb1
    simp only [SConf.thr, hM, exactMetric] at hthr
    have hmax : c.bMax ≤ c.sizeA := by
      simp only [SConf.bMax, hM, exactMetric]; split <;> omega
    simp only [SConf.bMin, hM, exactMetric] at hb1
    refine ⟨b1, by omega, by omega⟩

include hone L LG hd hf hoi hs hq hqd in
/-- **C29** the Exact metric in any arithmetic (for float64: `C29_float_exact`). -/
theorem exact_any {α : S} (h1 : α ≤ one) {K : Nat} (hK : 1 ≤ K) {r : Except Err (List (Candidate S))}
    (hr : SuggestReturns (suggestCall F (exactMetric F) ρ sort oi q α K) r) :
    r = .ok ((((docs.filter fun d => decide (d.terms ≠ [] ∧ d.terms.Perm q)).map Doc.id).take K).map fun id => ⟨id, one⟩) := by
  have hsame : ∀ d ∈ docs, (d.terms.length = q.length ∧ shared q d = q.length) ↔ d.terms.Perm q := by
    intro d hdm
    constructor
    · rintro ⟨h2, h3⟩
      have h4 : (q.filter (· ∈ d.terms)) = q := List.filter_eq_self.2 (List.length_filter_eq_length_iff.1 h3)
      have h5 : q ⊆ d.terms := by
        intro t ht; rw [← h4] at ht; simpa using (List.mem_filter.1 ht).2
      exact ((List.subperm_of_subset hqd h5).perm_of_length_le (by omega)).symm
    · intro h
      refine ⟨h.length_eq, ?_⟩
      unfold shared
      rw [List.filter_eq_self.2]
      intro t ht; simpa using h.symm.subset ht
  cases hr with
  | empty h =>
    have hq0 : q = [] := List.eq_nil_of_length_eq_zero h
    subst hq0
    rw [List.filter_eq_nil_iff.2]
    · simp
    · intro d _
      simp
  | run h hre hfin =>
    have hpos : 1 ≤ q.length := by
      have : q.length ≠ 0 := h
      omega
    have hlaws := exact_laws_any hone (c := suggestCall F (exactMetric F) ρ sort oi q α K) rfl rfl h1 hpos
    rw [final_result hK rfl (segmentsOk L LG hd hf hoi hs hq) (docsOk_of_good hd hqd (by have := hq.len; omega)) hlaws hre hfin]
    have hfil : answer (suggestCall F (exactMetric F) ρ sort oi q α K) docs q
        (fun b o => 1 ≤ b ∧ b = (suggestCall F (exactMetric F) ρ sort oi q α K).sizeA ∧
          o = (suggestCall F (exactMetric F) ρ sort oi q α K).sizeA)
        = ((docs.filter fun d => decide (d.terms ≠ [] ∧ d.terms.Perm q)).map Doc.id).map fun id => ⟨id, one⟩ := by
      unfold answer
      rw [List.map_map]
      have : (docs.filter fun d => decide (1 ≤ d.terms.length ∧ d.terms.length = q.length ∧ shared q d = q.length))
          = docs.filter fun d => decide (d.terms ≠ [] ∧ d.terms.Perm q) := by
        apply List.filter_congr
        intro d hdm
        rw [decide_eq_decide, hsame d hdm, Nat.one_le_iff_ne_zero, ne_eq, ne_eq, List.length_eq_zero_iff]
      refine Eq.trans (congrArg _ this) ?_
      apply List.map_congr_left
      intro d _
      show (⟨d.id, _⟩ : Candidate S) = ⟨d.id, one⟩
      congr 1
    rw [hfil, List.map_take]
    congr 1
    unfold best
    rw [List.mergeSort_of_pairwise]
    rw [List.pairwise_map, List.pairwise_map]
    refine (hd.ids.filter _).imp ?_
    intro a b hab
    simp [Candidate.betterEq, hab.le]

include hone L LG hd hf hoi hs hq hqd in
/-- What can happen to a call with the Exact metric. -/
theorem exact_fates (hq0 : q ≠ []) (hne : docs ≠ []) {α : S} (h1 : α ≤ one) {K : Nat} (hK : 1 ≤ K) :
    let c := suggestCall F (exactMetric F) ρ sort oi q α K
    ((∃ r, SuggestReturns c r) ↔ ∃ d ∈ docs, q.length ≤ d.terms.length) ∧
    (SuggestBlocks c ↔ (∃ d ∈ docs, d.terms.length + 1 = q.length) ∧ ∀ d ∈ docs, d.terms.length < q.length) ∧
    (SuggestPanics c ↔ ∀ d ∈ docs, d.terms.length + 1 < q.length) ∧
    (∀ s, c.Reachable s → s.panicked = none) := by
  have hz : q.length ≠ 0 := fun h => hq0 (List.length_eq_zero_iff.1 h)
  have e1 : (exactMetric F).minY α q.length = q.length := rfl
  have e2 : (exactMetric F).maxY α q.length = q.length := rfl
  have key := fates_of (sort := sort) L LG hd hf hoi hq0 hne F (α := α) (M := exactMetric F) (K := K) (by rw [e1]) (by rw [e1, e2]) (fun h => by
    have hlaws := exact_laws_any hone (c := suggestCall F (exactMetric F) ρ sort oi q α K) rfl rfl h1 (show 1 ≤ q.length by omega)
    have hcap : (suggestCall F (exactMetric F) ρ sort oi q α K).bMin ≤ (suggestCall F (exactMetric F) ρ sort oi q α K).bMax := by
      obtain ⟨d, hdm, hle⟩ := h
      have h2 := le_maxCard hdm
      have hsize : oi.size = maxCard docs := (hoi.ok L LG hd hf).size
      rw [e1] at hle
      show (q.length : Int) ≤ if (q.length : Int) ≥ oi.size then (oi.size : Int) - 1 else q.length
      split <;> omega
    have : Nonempty (Nat → SkipList) := ⟨fun _ => ⟨⟨[], 0⟩, 0, 0, 0, 0, 0, 0, false⟩⟩
    obtain ⟨a, b, _, d⟩ := call_terminates (Env := Nat → SkipList) hK rfl (segmentsOk L LG hd hf hoi hs hq)
      (docsOk_of_good hd hqd (by have := hq.len; omega)) hlaws.toPosLaws hz hcap
    exact ⟨a, b, d⟩)
  simp only [e1] at key
  exact_mod_cast key
end

theorem one_f64 (oob : Int) : (f64Ops oob).sub ((f64Ops oob).ofInt 1) ((f64Ops oob).ofInt 0) = 1 := by
  show rnd53 (rnd53 ((1 : Int) : ℚ) - rnd53 ((0 : Int) : ℚ)) = 1
  decide +kernel

section
variable {ρ : Roaring} (L : ρ.Lawful) {G : Gob} (LG : G.Lawful) {docs : List Doc} (hd : GoodDocs docs)
  (hf : FirstNonempty docs) {oi : OpenIndex} (hoi : IndexOf ρ G docs oi)
  {sort : List (PList ρ) → List (PList ρ)} (hs : ∀ r, (sort r).Perm r) {q : List String} (hq : FewCommon docs q)
  (hqd : q.Nodup)

include L LG hd hf hoi hs hq hqd in
/-- **C29** the Exact metric, also in float64 arithmetic: the `K` smallest ids of the documents with exactly the terms of the query,
with score 1. -/
theorem C29_float_exact {oob : Int} {α : ℚ} (h1 : α ≤ 1) {K : Nat} (hK : 1 ≤ K) {r : Except Err (List (Candidate ℚ))}
    (hr : SuggestReturns (suggestCall (f64Ops oob) (exactMetric (f64Ops oob)) ρ sort oi q α K) r) :
    r = .ok ((((docs.filter fun d => decide (d.terms ≠ [] ∧ d.terms.Perm q)).map Doc.id).take K).map fun id => ⟨id, 1⟩) :=
  exact_any (one_f64 oob) L LG hd hf hoi hs hq hqd h1 hK hr

include L LG hd hf hoi hs hq hqd in
/-- **C30** the Exact metric in float64 arithmetic: what can happen to a call does not depend on the schedule. If some document has at
least as many terms as the query, the call always returns; if the longest have one less, it always hangs; otherwise it panics. -/
theorem C30_exact_metric (hq0 : q ≠ []) (hne : docs ≠ []) {oob : Int} {α : ℚ} (h1 : α ≤ 1) {K : Nat} (hK : 1 ≤ K) :
    let c := suggestCall (f64Ops oob) (exactMetric (f64Ops oob)) ρ sort oi q α K
    ((∃ r, SuggestReturns c r) ↔ ∃ d ∈ docs, q.length ≤ d.terms.length) ∧
    (SuggestBlocks c ↔ (∃ d ∈ docs, d.terms.length + 1 = q.length) ∧ ∀ d ∈ docs, d.terms.length < q.length) ∧
    (SuggestPanics c ↔ ∀ d ∈ docs, d.terms.length + 1 < q.length) ∧
    (∀ s, c.Reachable s → s.panicked = none) :=
  exact_fates (one_f64 oob) L LG hd hf hoi hs hq hqd hq0 hne h1 hK

end

section
variable {ρ : Roaring} (L : ρ.Lawful) {G : Gob} (LG : G.Lawful)
  {lower : Nat → Nat} {sort : List Alphabet → List Alphabet} {d : TokenConf} {c : WordConf} (hdc : Describes lower sort d c)
  {words : List (List Char)} (hwords : words.length < 2 ^ 32) (hfaith : ∀ w ∈ words, c.Faithful (c.wordText w))
  (hfirst : ∀ w, words.head? = some w → c.grams (c.wordText w) ≠ [])
  (hn : ∀ w ∈ words, (c.grams (c.wordText w)).length ≤ 32767)
  {oi : OpenIndex} (hoi : WordIndex ρ G lower sort d words oi)
  {msort : List (PList ρ) → List (PList ρ)} (hs : ∀ r, (msort r).Perm r) {query : List Char}

/-- The words with the same set of n-grams as the query (and at least one). -/
def sameGrams (c : WordConf) (query : List Char) (words : List (List Char)) : List (List Char) :=
  words.filter fun w => decide (c.grams (c.wordText w) ≠ [] ∧ (∀ g ∈ c.grams (c.wordText w), g ∈ c.grams (c.wordText query)) ∧
    ∀ g ∈ c.grams (c.wordText query), g ∈ c.grams (c.wordText w))

include L LG hdc hwords hfaith hfirst hn hoi hs in
/-- **C67** A search with the metric "Exact", in float64 arithmetic, under every schedule: the first `K` words, in the order of the
dictionary, that have the same set of n-grams as the query, with score 1. -/
theorem C67_exact_words (hqf : c.Faithful (c.wordText query)) (hq : (c.grams (c.wordText query)).length ≤ 65535)
    {oob : Int} {α : ℚ} (h1 : α ≤ 1) {K : Nat} (hK : 1 ≤ K) {r : Except Err (List (ℚ × List UInt8))}
    (hr : ServiceSuggest (f64Ops oob) (exactMetric (f64Ops oob)) ρ msort (suggestTokenizer lower sort d) oi (ramDict (words.map utf8))
      (utf8 query) α K r) :
    r = .ok (((sameGrams c query words).take K).map fun w => (1, utf8 w)) := by
  rcases hr with ⟨e, he, _⟩ | ⟨q, cs, he, hret, rfl⟩
  · rw [suggestTokens hdc hqf] at he; cases he
  rw [suggestTokens hdc hqf] at he
  simp only [Except.ok.injEq] at he
  subst he
  have hgd : GoodDocs (wordDocs c words) := wordDocs_good hwords fun w hw => by have := hn w hw; omega
  rw [List.map_map] at hret
  have hqn : ((c.grams (c.wordText query)).map term).Nodup := (grams_nodup _).map_on fun _ _ _ _ e => term_inj e
  have key := C29_float_exact L LG hgd (wordDocs_first (c := c) hfirst) (wordIndex_indexOf hdc hfaith hoi) hs
    (q := (c.grams (c.wordText query)).map term) (.of_short (by simpa using hq)) hqn h1 hK hret
  subst key
  rw [answer_ok, List.map_map]
  congr 1
  have hmem : ∀ (k : Nat) (w : List Char), decide ((wordDoc c k w).terms ≠ [] ∧ (wordDoc c k w).terms.Perm ((c.grams (c.wordText query)).map term)) =
      decide (c.grams (c.wordText w) ≠ [] ∧ (∀ g ∈ c.grams (c.wordText w), g ∈ c.grams (c.wordText query)) ∧
        ∀ g ∈ c.grams (c.wordText query), g ∈ c.grams (c.wordText w)) := by
    intro k w
    rw [decide_eq_decide]
    show ((c.grams (c.wordText w)).map term ≠ [] ∧ ((c.grams (c.wordText w)).map term).Perm _) ↔ _
    refine and_congr (by simp) ?_
    rw [List.map_perm_map_iff (fun _ _ e => term_inj e), List.perm_ext_iff_of_nodup (grams_nodup _) (grams_nodup _)]
    constructor
    · exact fun h => ⟨fun g => (h g).1, fun g => (h g).2⟩
    · exact fun h g => ⟨h.1 g, h.2 g⟩
  have hids : ((wordDocs c words).filter fun x => decide (x.terms ≠ [] ∧ x.terms.Perm ((c.grams (c.wordText query)).map term))) =
      (words.zipIdx.filter fun wi : List Char × Nat => decide (c.grams (c.wordText wi.1) ≠ [] ∧
        (∀ g ∈ c.grams (c.wordText wi.1), g ∈ c.grams (c.wordText query)) ∧
        ∀ g ∈ c.grams (c.wordText query), g ∈ c.grams (c.wordText wi.1))).map fun wi => wordDoc c wi.2 wi.1 := by
    unfold wordDocs
    rw [List.filter_map]
    congr 1
    apply List.filter_congr
    intro wi _
    exact hmem wi.2 wi.1
  have hw : sameGrams c query words = (words.zipIdx.filter fun wi : List Char × Nat => decide (c.grams (c.wordText wi.1) ≠ [] ∧
        (∀ g ∈ c.grams (c.wordText wi.1), g ∈ c.grams (c.wordText query)) ∧
        ∀ g ∈ c.grams (c.wordText query), g ∈ c.grams (c.wordText wi.1))).map Prod.fst := by
    unfold sameGrams
    have e : words = words.zipIdx.map Prod.fst := by simp
    conv_lhs => rw [e]
    rw [List.filter_map]
    rfl
  rw [hids, hw, List.map_map, ← List.map_take, ← List.map_take, List.map_map, List.map_map]
  apply List.map_congr_left
  intro wi hwi
  have h2 := (List.mem_filter.1 (List.mem_of_mem_take hwi)).1
  rw [List.mem_zipIdx_iff_getElem?] at h2
  simp only [Function.comp_apply, Prod.mk.injEq, true_and, wordDoc]
  exact dict_get h2

variable {dict : Bytes}
  {dict' query' raw : Bytes} {kvs : List (Bytes × Bytes)} (hd : PctEncoded false dict dict') (hsd : PathSegment dict)
  (hq : PctEncoded false (utf8 query) query') (hsq : PathSegment (utf8 query)) (hform : FormEncoded kvs raw)
  {pf : Bytes → Except Err F64} {num : ℚ → Bytes} {oob : Int} {w : World}
  (hpub : w.published dict = some ⟨oi, ramDict (words.map utf8), suggestTokenizer lower sort d, autocompleteTokenizer lower sort d⟩)

include L LG hdc hwords hfaith hfirst hn hoi hs hd hsd hq hsq hform hpub in
/-- **C94** What happens to a request "GET /suggest/<dictionary>/<query>/?metric=Exact&…", whatever the other requests are: it is
answered if some word has at least as many n-grams as the query; it hangs for ever if the longest words have one less; otherwise the
connection is closed without an answer. It never ends the process. -/
theorem C94_exact_fate (hqf : c.Faithful (c.wordText query)) (hqn : (c.grams (c.wordText query)).length ≤ 65535)
    (hq0 : c.grams (c.wordText query) ≠ []) (hne : words ≠ [])
    (hm : metricOf (fieldValue kvs "metric".toUTF8.toList) = some .exact) {K : Nat}
    (hK : (fieldValue kvs "topK".toUTF8.toList = [] ∧ K = 5) ∨
      (IsDecimal (fieldValue kvs "topK".toUTF8.toList) K ∧ 1 ≤ K ∧ K < 2 ^ 63)) {α : ℚ}
    (hα : (fieldValue kvs "similarity".toUTF8.toList = [] ∧ α = 1 / 2) ∨
      (fieldValue kvs "similarity".toUTF8.toList ≠ [] ∧ pf (fieldValue kvs "similarity".toUTF8.toList) = .ok (.num α)))
    (h0 : 0 < α) (h1 : α ≤ 1) :
    let fate := RequestFate (f64Ops oob) ρ msort pf num w .get (searchTarget "suggest" dict' query' raw)
    let size := fun v => (c.grams (c.wordText v)).length
    ((∃ a, fate (.answered a)) ↔ ∃ v ∈ words, size query ≤ size v) ∧
    (fate .stuck ↔ (∃ v ∈ words, size v + 1 = size query) ∧ ∀ v ∈ words, size v < size query) ∧
    (fate .aborted ↔ ∀ v ∈ words, size v + 1 < size query) ∧
    ¬ fate .fatal := by
  have hK1 : 1 ≤ K := by rcases hK with ⟨_, rfl⟩ | ⟨_, h, _⟩; exacts [by decide, h]
  have hgd : GoodDocs (wordDocs c words) := wordDocs_good hwords fun w hw => by have := hn w hw; omega
  have main := suggest_fate_of (ρ := ρ) (msort := msort) (pf := pf) (num := num) (oob := oob) hdc hd hsd hq hsq hform hpub hqf hm hK hα h0 h1
    (fun r hr => ⟨_, C67_exact_words L LG hdc hwords hfaith hfirst hn hoi hs hqf hqn h1 hK1 hr⟩) (by
      have key := C30_exact_metric L LG hgd (wordDocs_first (c := c) hfirst) (wordIndex_indexOf hdc hfaith hoi) (sort := msort) hs
        (q := (c.grams (c.wordText query)).map term) (.of_short (by simpa using hqn))
        ((grams_nodup _).map_on fun _ _ _ _ e => term_inj e) (by simpa using hq0) (wordDocs_ne hne) (oob := oob) h1 hK1
      simp only [List.length_map] at key
      have e : (MetricName.exact.metric (f64Ops oob)).minY α (c.grams (c.wordText query)).length = (c.grams (c.wordText query)).length := rfl
      simp only [e]
      exact_mod_cast key)
  have e : (MetricName.exact.metric (f64Ops oob)).minY α (c.grams (c.wordText query)).length = (c.grams (c.wordText query)).length := rfl
  simp only [e] at main
  exact_mod_cast main

include L LG hdc hwords hfaith hfirst hn hoi hs hd hsd hq hsq hform hpub in
/-- **C88** … and if there is an answer, its body is JSON: the first `K` words, in the order of the dictionary, that have the same set
of n-grams as the query, with score 1. -/
theorem C88_exact {numText : ℚ → List Char} (hnum : ∀ x, NumText (numText x)) {names : List Bytes}
    (hqf : c.Faithful (c.wordText query)) (hqn : (c.grams (c.wordText query)).length ≤ 65535)
    (hm : metricOf (fieldValue kvs "metric".toUTF8.toList) = some .exact) {K : Nat}
    (hK : (fieldValue kvs "topK".toUTF8.toList = [] ∧ K = 5) ∨
      (IsDecimal (fieldValue kvs "topK".toUTF8.toList) K ∧ 1 ≤ K ∧ K < 2 ^ 63)) {α : ℚ}
    (hα : (fieldValue kvs "similarity".toUTF8.toList = [] ∧ α = 1 / 2) ∨
      (fieldValue kvs "similarity".toUTF8.toList ≠ [] ∧ pf (fieldValue kvs "similarity".toUTF8.toList) = .ok (.num α)))
    (h0 : 0 < α) (h1 : α ≤ 1) {a : Answer}
    (ha : Answered (f64Ops oob) ρ msort pf (fun x => utf8 (numText x)) w.published names .get
      (searchTarget "suggest" dict' query' raw) a) :
    ∃ body, a = .json body ∧ JsonBody body (itemsJson numText (((sameGrams c query words).take K).map fun w => (1, w))) := by
  have hc := handler_config hform hK hα h0 h1 hm (goString (utf8 query))
  have hK1 : 1 ≤ K := by rcases hK with ⟨_, rfl⟩ | ⟨_, h, _⟩; exacts [by decide, h]
  have hh := (answered_suggest hd hsd hq hsq hform).1 ha
  cases hh with
  | bad g => rw [hc] at g; cases g
  | unknown _ g => rw [hpub] at g; cases g
  | failedNaN g1 g2 | okNaN g1 g2 =>
    rw [hc] at g1; cases g1
    cases g2
  | failed g1 g2 g3 g4 =>
    rw [hc] at g1; cases g1
    cases g2
    rw [hpub] at g3; cases g3
    have e := C67_exact_words L LG hdc hwords hfaith hfirst hn hoi hs hqf hqn h1 hK1 g4
    cases e
  | ok g1 g2 g3 g4 =>
    rename_i items
    rw [hc] at g1; cases g1
    cases g2
    rw [hpub] at g3; cases g3
    have e := C67_exact_words L LG hdc hwords hfaith hfirst hn hoi hs hqf hqn h1 hK1 g4
    simp only [Except.ok.injEq] at e
    refine ⟨_, rfl, ?_⟩
    have := items_read hnum items
    rw [e, List.map_map] at this
    have e2 : ((fun it : ℚ × Bytes => (it.1, shown it.2)) ∘ fun w => (1, utf8 w)) = fun w : List Char => ((1 : ℚ), w) := by
      funext w
      simp [shown_utf8]
    rw [e2] at this
    rw [e]
    exact this

end
/-- **C67** The metric "Exact" does not compare the words but their sets of n-grams: with trigrams, the query "AAAA" finds the word
"aaaaa" (and "aaaaaaa"), but not "aaab". -/
theorem C67_exact_example :
    sameGrams tinySpec "AAAA".toList ["aaab".toList, "aaaaa".toList, "baaa".toList, "aaaaaaa".toList] = ["aaaaa".toList, "aaaaaaa".toList] := by
  decide +kernel

/-- **C94** The dictionary is "apple", "Apply", "maple", with trigrams; the metric is Exact. The request for "APPLE" is answered, the
body is [{"Score":1,"Value":"apple"}]; the one for "apples" hangs for ever; the one for "applesauce" is closed without an answer. -/
theorem C94_exact_example : ∃ (G : Gob) (_ : G.Lawful) (w : World), WellBuilt toyRoaring G 2 w ∧
    ∀ (pf : Bytes → Except Err F64) (numText : ℚ → List Char), (∀ x, NumText (numText x)) →
      let fate := fun t : String => RequestFate (f64Ops 0) toyRoaring id pf (fun x => utf8 (numText x)) w .get (utf8 t.toList)
      ((∃ a, fate "/suggest/fruit/APPLE/?metric=Exact" (.answered a)) ∧
        ∀ a, Answered (f64Ops 0) toyRoaring id pf (fun x => utf8 (numText x)) w.published w.names .get
            (utf8 "/suggest/fruit/APPLE/?metric=Exact".toList) a →
          ∃ body, a = .json body ∧ JsonBody body (itemsJson numText [(1, "apple".toList)])) ∧
      (∀ f, fate "/suggest/fruit/apples/?metric=Exact" f ↔ f = .stuck) ∧
      (∀ f, fate "/suggest/fruit/applesauce/?metric=Exact" f ↔ f = .aborted) := by
  obtain ⟨G, LG, oi, h⟩ := tiny_index
  obtain ⟨w, hwd⟩ : ∃ w : World, w = ⟨fun _ => some ⟨oi, ramDict (tinyWords.map utf8), suggestTokenizer asciiLower id tinyConf,
    autocompleteTokenizer asciiLower id tinyConf⟩, [utf8 "fruit".toList]⟩ := ⟨_, rfl⟩
  have hw : WellBuilt toyRoaring G 2 w := by
    intro dict p hp
    rw [hwd] at hp
    cases hp
    exact ⟨asciiLower, id, tinyConf, wordDocs tinySpec tinyWords, by decide, by decide, by decide +kernel, rfl, rfl,
      wordDocs_good (by decide) (by decide +kernel), wordDocs_first (by decide +kernel), wordIndex_indexOf tiny_describes tiny_faithful h⟩
  have hform : FormEncoded [(utf8 "metric".toList, utf8 "Exact".toList)] (utf8 "metric=Exact".toList) := by
    have l : ∀ s : String, (∀ c ∈ utf8 s.toList, Unreserved c) → PctEncoded true (utf8 s.toList) (utf8 s.toList) := fun s h => enc_literal h
    have h := FormEncoded.last (l "metric" (by unfold Unreserved; decide +kernel)) (l "Exact" (by unfold Unreserved; decide +kernel))
    have e : utf8 "metric=Exact".toList = utf8 "metric".toList ++ 61 :: utf8 "Exact".toList := by decide +kernel
    rw [e]
    exact h
  refine ⟨G, LG, w, hw, fun pf numText hnum => ?_⟩
  have key := fun (query : List Char) h1 h2 h3 h4 h5 => C94_exact_fate toyLawful LG tiny_describes (by decide) tiny_faithful (by decide +kernel)
    (by decide +kernel) h (msort := id) (fun _ => .refl _) (query := query) (dict := utf8 "fruit".toList) (w := w) (pf := pf)
    (num := fun x => utf8 (numText x)) (oob := 0)
    (enc_literal (by unfold Unreserved; decide +kernel)) (by unfold PathSegment; decide +kernel)
    (enc_literal h1) h2 hform (by rw [hwd]) (faithful_of_clean h3) h4 h5 (by decide) (by decide +kernel) (K := 5)
    (.inl ⟨by decide +kernel, rfl⟩) (α := 1 / 2) (.inl ⟨by decide +kernel, rfl⟩) (by norm_num) (by norm_num)
  refine ⟨?_, fun f => ?_, fun f => ?_⟩
  · have e : utf8 "/suggest/fruit/APPLE/?metric=Exact".toList =
        searchTarget "suggest" (utf8 "fruit".toList) (utf8 "APPLE".toList) (utf8 "metric=Exact".toList) := by decide +kernel
    beta_reduce; rw [e]
    obtain ⟨k, _⟩ := key "APPLE".toList (by unfold Unreserved; decide +kernel) (by unfold PathSegment; decide +kernel)
      (by decide +kernel) (by decide +kernel) (by decide +kernel)
    refine ⟨k.2 ⟨"apple".toList, by decide, by decide +kernel⟩, fun a ha => ?_⟩
    have hb := C88_exact toyLawful LG tiny_describes (by decide) tiny_faithful (by decide +kernel)
      (by decide +kernel) h (msort := id) (fun _ => .refl _) (query := "APPLE".toList) (dict := utf8 "fruit".toList) (w := w) (pf := pf) (oob := 0)
      (enc_literal (by unfold Unreserved; decide +kernel)) (by unfold PathSegment; decide +kernel)
      (enc_literal (by unfold Unreserved; decide +kernel)) (by unfold PathSegment; decide +kernel) hform (by rw [hwd]) hnum
      (faithful_of_clean (by decide +kernel)) (by decide +kernel) (by decide +kernel) (K := 5)
      (.inl ⟨by decide +kernel, rfl⟩) (α := 1 / 2) (.inl ⟨by decide +kernel, rfl⟩) (by norm_num) (by norm_num) ha
    have e2 : (sameGrams tinySpec "APPLE".toList tinyWords).take 5 = ["apple".toList] := by decide +kernel
    rw [e2] at hb
    exact hb
  · have e : utf8 "/suggest/fruit/apples/?metric=Exact".toList =
        searchTarget "suggest" (utf8 "fruit".toList) (utf8 "apples".toList) (utf8 "metric=Exact".toList) := by decide +kernel
    beta_reduce; rw [e]
    obtain ⟨k1, k2, k3, k4⟩ := key "apples".toList (by unfold Unreserved; decide +kernel) (by unfold PathSegment; decide +kernel)
      (by decide +kernel) (by decide +kernel) (by decide +kernel)
    constructor
    · intro hf
      cases f with
      | answered a =>
        exfalso
        have := k1.1 ⟨a, hf⟩
        revert this; decide +kernel
      | stuck => rfl
      | aborted =>
        exfalso
        have := k3.1 hf
        revert this; decide +kernel
      | fatal => exact absurd hf k4
    · rintro rfl
      exact k2.2 (by decide +kernel)
  · have e : utf8 "/suggest/fruit/applesauce/?metric=Exact".toList =
        searchTarget "suggest" (utf8 "fruit".toList) (utf8 "applesauce".toList) (utf8 "metric=Exact".toList) := by decide +kernel
    beta_reduce; rw [e]
    obtain ⟨k1, k2, k3, k4⟩ := key "applesauce".toList (by unfold Unreserved; decide +kernel) (by unfold PathSegment; decide +kernel)
      (by decide +kernel) (by decide +kernel) (by decide +kernel)
    constructor
    · intro hf
      cases f with
      | answered a =>
        exfalso
        have := k1.1 ⟨a, hf⟩
        revert this; decide +kernel
      | stuck =>
        exfalso
        have := k2.1 hf
        revert this; decide +kernel
      | aborted => rfl
      | fatal => exact absurd hf k4
    · rintro rfl
      exact k3.2 (by decide +kernel)

end Verif.Props
