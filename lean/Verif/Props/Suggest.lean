import Verif.Proofs.SuggestLaws
import Verif.Proofs.SuggestFinal
import Verif.Proofs.SuggestRun
/-!
Property theorems C29–C32 (pkg/suggest: suggester, collector manager, search configuration).

`IndexOf ρ G docs oi` — `oi` is the opened index of the documents. `suggestCall F M ρ sort oi q α K` — the call of
`Suggest` for a query with the tokens `q`, with its goroutines. `SuggestReturns c r`, `SuggestPanics c`,
`SuggestBlocks c` — under some schedule the call returns `r`, panics, blocks for ever. `suggestAnswer`
(Verif/Spec/Suggest.lean) — the k best of all documents. `RealMetric` — the four metrics in exact arithmetic, with
the side condition that no bound overflows int64 (Overlap: documents with at most 32767 terms), see C28.
-/
namespace Verif.Props
open Verif Spec

section
variable {ρ : Roaring} (L : ρ.Lawful) {G : Gob} (LG : G.Lawful) {docs : List Doc} (hd : GoodDocs docs)
  (hf : FirstNonempty docs) {oi : OpenIndex} (hoi : IndexOf ρ G docs oi)
  {sort : List (PList ρ) → List (PList ρ)} (hs : ∀ r, (sort r).Perm r) {q : List String} (hq : FewCommon docs q)
  (hqd : q.Nodup)

theorem docsOk_of_good {docs : List Doc} {q : List String} (hd : GoodDocs docs) (hqd : q.Nodup) (hq : q.length < 2 ^ 32) :
    DocsOk docs q q.length :=
  ⟨⟨hd.ids, hd.id32, hd.terms, rfl, by omega⟩, hqd⟩

include L LG hd hf hoi hs hq hqd in
/-- **C29** In exact arithmetic `Suggest` returns, under every schedule of its goroutines, the `K` best of all documents
with similarity at least `α`. -/
theorem C29_suggest {oob : Int} {α : ℝ} (h0 : 0 < α) (h1 : α ≤ 1) {n : Nat} (hn : ∀ d ∈ docs, d.terms.length < n)
    (hn' : n ≤ 2 ^ 31) {M : Metric ℝ} {sim : Nat → Nat → Nat → ℝ} (hM : RealMetric oob α q.length n M sim)
    {K : Nat} (hK : 1 ≤ K) {r : Except Err (List (Candidate ℝ))}
    (hr : SuggestReturns (suggestCall (realOps oob) M ρ sort oi q α K) r) :
    r = .ok (suggestAnswer sim docs q α K) := by
  classical
  have hsz : oi.size ≤ n := by rw [(hoi.ok L LG hd hf).size]; exact maxCard_le hn
  cases hr with
  | empty h =>
    have hq0 : q = [] := List.eq_nil_of_length_eq_zero h
    subst hq0
    have hz : ∀ b, sim 0 b 0 = 0 := by
      intro b
      cases hM <;> simp [jaccardSim, diceSim, cosineSim, overlapSim]
    unfold suggestAnswer
    rw [List.filter_eq_nil_iff.2]
    · simp [best]
    · intro d _
      simp only [shared, List.filter_nil, List.length_nil, hz, decide_eq_true_eq, not_le]
      exact h0
  | run h hre hfin =>
    have hpos : 1 ≤ q.length := by
      have : q.length ≠ 0 := h
      omega
    have hfacts := (hM.mono hsz).facts h0 h1 hpos (by have := hq.len; omega)
    have hlaws := RealFacts.laws (c := suggestCall (realOps oob) M ρ sort oi q α K) (oob := oob) rfl hfacts h0 h1
      (show oi.size ≤ 2 ^ 31 by omega)
    rw [final_result hK rfl (segmentsOk L LG hd hf hoi hs hq) (docsOk_of_good hd hqd (by have := hq.len; omega)) hlaws hre hfin]
    unfold suggestAnswer answer
    congr 2
    have hsc : ∀ b o : Nat, (suggestCall (realOps oob) M ρ sort oi q α K).score b o = sim q.length b o :=
      fun b o => hfacts.score b o
    have hfil : (docs.filter fun d => decide (1 ≤ d.terms.length ∧ (suggestCall (realOps oob) M ρ sort oi q α K).similarity ≤
        sim (suggestCall (realOps oob) M ρ sort oi q α K).sizeA d.terms.length (shared q d)))
        = docs.filter fun d => decide (α ≤ sim q.length d.terms.length (shared q d)) := by
      apply List.filter_congr
      intro d _
      rw [decide_eq_decide]
      show (1 ≤ d.terms.length ∧ α ≤ sim q.length d.terms.length (shared q d)) ↔ _
      refine ⟨fun h => h.2, fun h => ⟨?_, h⟩⟩
      by_contra hlt
      have hl : d.terms.length = 0 := by omega
      have hsh : shared q d = 0 := by have := shared_le_terms (d := d) hqd; omega
      rw [hl, hsh, hfacts.zero] at h
      linarith
    rw [hfil]
    apply List.map_congr_left
    intro d _
    simp only [candOf, hsc]

include L LG hd hf hoi hs hq hqd in
/-- **C29** the Exact metric: the `K` smallest ids of the documents with exactly the terms of the query, with score 1. -/
theorem C29_exact {oob : Int} {α : ℝ} (h1 : α ≤ 1) {K : Nat} (hK : 1 ≤ K) {r : Except Err (List (Candidate ℝ))}
    (hr : SuggestReturns (suggestCall (realOps oob) (exactMetric (realOps oob)) ρ sort oi q α K) r) :
    r = .ok ((((docs.filter fun d => decide (d.terms ≠ [] ∧ d.terms.Perm q)).map Doc.id).take K).map fun id => ⟨id, 1⟩) := by
  have hsame : ∀ d ∈ docs, (d.terms.length = q.length ∧ shared q d = q.length) ↔ d.terms.Perm q := by
    intro d hdm
    constructor
    · rintro ⟨h2, h3⟩
      have h4 : (q.filter (· ∈ d.terms)) = q := List.filter_eq_self.2 (List.length_filter_eq_length_iff.1 h3)
      have h5 : q ⊆ d.terms := by
        intro t ht; rw [← h4] at ht; simpa using (List.mem_filter.1 ht).2
      exact ((List.subperm_of_subset hqd h5).perm_of_length_le (by omega)).symm
    · intro h
      refine ⟨h.length_eq, ?_⟩
      unfold shared
      rw [List.filter_eq_self.2]
      intro t ht; simpa using h.symm.subset ht
  cases hr with
  | empty h =>
    have hq0 : q = [] := List.eq_nil_of_length_eq_zero h
    subst hq0
    rw [List.filter_eq_nil_iff.2]
    · simp
    · intro d _
      simp
  | run h hre hfin =>
    have hpos : 1 ≤ q.length := by
      have : q.length ≠ 0 := h
      omega
    have hlaws := exact_laws (c := suggestCall (realOps oob) (exactMetric (realOps oob)) ρ sort oi q α K) (oob := oob) rfl rfl h1 hpos
    rw [final_result hK rfl (segmentsOk L LG hd hf hoi hs hq) (docsOk_of_good hd hqd (by have := hq.len; omega)) hlaws hre hfin]
    have hfil : answer (suggestCall (realOps oob) (exactMetric (realOps oob)) ρ sort oi q α K) docs q
        (fun b o => 1 ≤ b ∧ b = (suggestCall (realOps oob) (exactMetric (realOps oob)) ρ sort oi q α K).sizeA ∧
          o = (suggestCall (realOps oob) (exactMetric (realOps oob)) ρ sort oi q α K).sizeA)
        = ((docs.filter fun d => decide (d.terms ≠ [] ∧ d.terms.Perm q)).map Doc.id).map fun id => ⟨id, 1⟩ := by
      unfold answer
      rw [List.map_map]
      have : (docs.filter fun d => decide (1 ≤ d.terms.length ∧ d.terms.length = q.length ∧ shared q d = q.length))
          = docs.filter fun d => decide (d.terms ≠ [] ∧ d.terms.Perm q) := by
        apply List.filter_congr
        intro d hdm
        rw [decide_eq_decide, hsame d hdm, Nat.one_le_iff_ne_zero, ne_eq, ne_eq, List.length_eq_zero_iff]
      refine Eq.trans (congrArg _ this) ?_
      apply List.map_congr_left
      intro d _
      show (⟨d.id, _⟩ : Candidate ℝ) = ⟨d.id, 1⟩
      congr 1
      exact score_exact
    rw [hfil, List.map_take]
    congr 1
    unfold best
    rw [List.mergeSort_of_pairwise]
    rw [List.pairwise_map, List.pairwise_map]
    refine (hd.ids.filter _).imp ?_
    intro a b hab
    simp [Candidate.betterEq, hab.le]

include L LG hd hf hoi hs hq hqd in
/-- **C31** In exact arithmetic the result does not depend on the schedule, nor on the order in which maps were iterated
when the index was built, nor on the (unstable) sort of the merger: two calls on two indexes of the same documents
return the same list. -/
theorem C31_deterministic {G' : Gob} (LG' : G'.Lawful) {ρ' : Roaring} (L' : ρ'.Lawful) {oi' : OpenIndex}
    (hoi' : IndexOf ρ' G' docs oi') {sort' : List (PList ρ') → List (PList ρ')} (hs' : ∀ r, (sort' r).Perm r)
    {oob : Int} {α : ℝ} (h0 : 0 < α) (h1 : α ≤ 1) {n : Nat} (hn : ∀ d ∈ docs, d.terms.length < n)
    (hn' : n ≤ 2 ^ 31) {M : Metric ℝ} {sim : Nat → Nat → Nat → ℝ} (hM : RealMetric oob α q.length n M sim)
    {K : Nat} (hK : 1 ≤ K) {r r' : Except Err (List (Candidate ℝ))}
    (hr : SuggestReturns (suggestCall (realOps oob) M ρ sort oi q α K) r)
    (hr' : SuggestReturns (suggestCall (realOps oob) M ρ' sort' oi' q α K) r') : r = r' := by
  rw [C29_suggest L LG hd hf hoi hs hq hqd h0 h1 hn hn' hM hK hr,
    C29_suggest L' LG' hd hf hoi' hs' hq hqd h0 h1 hn hn' hM hK hr']

/-! ### C30: termination -/

include L LG hd hf hoi hs hq hqd in
/-- **C30** (partial) If some document has at least `MinY(α, |query|)` terms, `Suggest` neither panics nor blocks nor
runs for ever, under any schedule. Without such a document it panics or blocks: `C30_blocks`, `C30_panics`. -/
theorem C30_terminates_partial {oob : Int} {α : ℝ} (h0 : 0 < α) (h1 : α ≤ 1) {n : Nat}
    (hn : ∀ d ∈ docs, d.terms.length < n) (hn' : n ≤ 2 ^ 31) {M : Metric ℝ} {sim : Nat → Nat → Nat → ℝ}
    (hM : RealMetric oob α q.length n M sim) {K : Nat} (hK : 1 ≤ K)
    (hlong : ∃ d ∈ docs, M.minY α q.length ≤ d.terms.length) :
    let c := suggestCall (realOps oob) M ρ sort oi q α K
    ¬ SuggestPanics c ∧ ¬ SuggestBlocks c ∧ (∀ f : Nat → SState ℝ, ¬ ∀ i, c.Step (f i) (f (i + 1))) ∧
      ∃ r, SuggestReturns c r := by
  classical
  intro c
  have hsize : oi.size = maxCard docs := (hoi.ok L LG hd hf).size
  have hsz : oi.size ≤ n := by rw [hsize]; exact maxCard_le hn
  by_cases hz : q.length = 0
  · exact ⟨fun h => by cases h <;> contradiction, fun h => h.1 hz, no_infinite_run, _, .empty hz⟩
  have hfacts := (hM.mono hsz).facts h0 h1 (show 1 ≤ q.length by omega) (by have := hq.len; omega)
  have hlaws := RealFacts.laws (c := c) (oob := oob) rfl hfacts h0 h1 (show oi.size ≤ 2 ^ 31 by omega)
  have hcap : c.bMin ≤ c.bMax := by
    obtain ⟨d, hdm, hle⟩ := hlong
    have h2 := le_maxCard hdm
    have h3 := hfacts.minY_maxY
    show M.minY α q.length ≤ if M.maxY α q.length ≥ oi.size then (oi.size : Int) - 1 else M.maxY α q.length
    split <;> omega
  have hso := segmentsOk (κ := TopKQueue ℝ) L LG hd hf hoi hs hq
  have hdo := docsOk_of_good hd hqd (by have := hq.len; omega)
  haveI : Nonempty (Nat → SkipList) := ⟨fun _ => ⟨⟨[], 0⟩, 0, 0, 0, 0, 0, 0, false⟩⟩
  exact call_terminates (Env := Nat → SkipList) hK rfl hso hdo hlaws.toPosLaws hz hcap

include L LG hd hf hoi in
/-- **C30** is false: if `MinY(α, |query|)` is exactly one more than the largest number of terms of a document, the call
blocks for ever (no worker is started and the channel has no buffer). -/
theorem C30_blocks {S : Type} [LinearOrder S] [Inhabited S] (F : FloatOps S) {α : S} {M : Metric S} {K : Nat}
    (hq0 : q ≠ []) {m : Nat} (hle : ∀ d ∈ docs, d.terms.length ≤ m) (hm : ∃ d ∈ docs, d.terms.length = m)
    (h1 : M.minY α q.length = m + 1) (h2 : m < M.maxY α q.length) (h3 : M.minY α q.length ≤ q.length) :
    SuggestBlocks (suggestCall F M ρ sort oi q α K) := by
  have hsize : oi.size = m + 1 := by
    rw [(hoi.ok L LG hd hf).size]
    obtain ⟨d, hdm, he⟩ := hm
    have := le_maxCard hdm
    have := maxCard_le (docs := docs) (n := m + 1) (fun d h => by have := hle d h; omega)
    omega
  obtain ⟨c, hc⟩ : ∃ c, c = suggestCall F M ρ sort oi q α K := ⟨_, rfl⟩
  rw [← hc]
  have e1 : c.bMin = m + 1 := by rw [hc]; exact h1
  have e2 : c.bMax = m := by
    have : c.bMax = if M.maxY α q.length ≥ oi.size then (oi.size : Int) - 1 else M.maxY α q.length := by rw [hc]; rfl
    rw [this, hsize, if_pos (by push_cast; omega)]; push_cast; omega
  have e3 : c.sizeA = q.length := by rw [hc]; rfl
  obtain ⟨q0, e0⟩ := TopKQueue.new_ok (S := S) K
  have e4 : TopKQueue.new c.topK = .ok q0 := by rw [hc]; exact e0
  have hne : q.length ≠ 0 := by simpa using hq0
  refine ⟨by rw [e3]; exact hne, ⟨sendLoop c.bMin c.bMax c.sizeA (c.sizeA + 1), false, [], 0, c.similarity, q0, false, [], none⟩,
    .start ?_, rfl, ?_, ?_⟩
  · unfold SConf.start
    rw [e4, e1, e2, if_neg (by omega)]
    simp
  · intro h; simp [SState.final] at h
  · have hsend : sendLoop c.bMin c.bMax c.sizeA (c.sizeA + 1) ≠ [] := by
      intro h
      have : (q.length : Int) ∈ sendLoop c.bMin c.bMax c.sizeA (c.sizeA + 1) := by
        rw [mem_sendLoop]; left; rw [e1, e3]; omega
      rw [h] at this; simp at this
    intro s' h
    generalize sendLoop c.bMin c.bMax c.sizeA (c.sizeA + 1) = l at hsend h
    cases h <;> simp_all

include L LG hd hf hoi in
/-- **C30** is false: if `MinY(α, |query|)` exceeds the largest number of terms by two or more, the call panics. -/
theorem C30_panics {S : Type} [LinearOrder S] [Inhabited S] (F : FloatOps S) {α : S} {M : Metric S} {K : Nat}
    (hq0 : q ≠ []) (h1 : ∀ d ∈ docs, (d.terms.length : Int) + 1 < M.minY α q.length) (hne : docs ≠ []) :
    SuggestPanics (suggestCall F M ρ sort oi q α K) := by
  have hsize : (oi.size : Int) < M.minY α q.length := by
    rw [(hoi.ok L LG hd hf).size]
    obtain ⟨d, hdm⟩ := List.exists_mem_of_ne_nil _ hne
    have h2 := h1 d hdm
    have h3 := maxCard_le (docs := docs) (n := (M.minY α q.length - 1).toNat) (fun d h => by have := h1 d h; omega)
    omega
  refine .start (e := .panicMake) (by simpa [suggestCall] using hq0) ?_
  unfold SConf.start
  rw [if_pos]
  show (if M.maxY α q.length ≥ oi.size then (oi.size : Int) - 1 else M.maxY α q.length) - M.minY α q.length + 1 < 0
  split <;> omega

end

/-! ### C31 in float64 -/

/-- Two documents with Jaccard similarity 2/5 to the query: 4 of 9 terms and 2 of 2 terms. -/
def tieDocs : List Doc := [⟨0, ["a", "b", "c", "d", "v", "w", "x", "y", "z"]⟩, ⟨1, ["a", "b"]⟩]

def tieQuery : List String := ["a", "b", "c", "d", "e"]

/-- The call with `similarity` 0.25 (exact in float64), Jaccard metric, top 1. -/
def tieCall (ρ : Roaring) (sort : List (PList ρ) → List (PList ρ)) (oi : OpenIndex) : SConf ℚ (Nat → SkipList) :=
  suggestCall (f64Ops (-2 ^ 63)) (jaccardMetric (f64Ops (-2 ^ 63))) ρ sort oi tieQuery (1 / 4) 1

/-- Both documents have this float64 score. -/
def tieScore : ℚ := 3602879701896397 / 9007199254740992

theorem tieDocs_good : GoodDocs tieDocs ∧ FirstNonempty tieDocs :=
  ⟨⟨by decide, by decide, by decide, by decide, by decide⟩, by
    intro d hd
    simp only [tieDocs, List.head?_cons, Option.some.injEq] at hd
    subst hd
    simp⟩

theorem best_singleton {S : Type} [LinearOrder S] (a : Candidate S) : best 1 [a] = [a] := by
  unfold best
  rw [List.mergeSort_of_pairwise (by simp)]
  rfl

/-- **C31** is false in float64: both documents have the same score; whether the one with the smaller id is returned
depends on whether the worker that searches its segment loads the bound before or after the other result was
committed (the threshold computed from the raised bound is 5, although 4 shared terms reach the score). -/
theorem C31_float_schedule_dependent {ρ : Roaring} (L : ρ.Lawful) {G : Gob} (LG : G.Lawful) {oi : OpenIndex}
    (hoi : IndexOf ρ G tieDocs oi) {sort : List (PList ρ) → List (PList ρ)} (hs : ∀ r, (sort r).Perm r) :
    SuggestReturns (tieCall ρ sort oi) (.ok [⟨0, tieScore⟩]) ∧
    SuggestReturns (tieCall ρ sort oi) (.ok [⟨1, tieScore⟩]) := by
  obtain ⟨hd, hf⟩ := tieDocs_good
  have hso := segmentsOk (κ := TopKQueue ℚ) L LG hd hf hoi hs (q := tieQuery) (.of_short (by decide))
  have hdo : DocsOk tieDocs tieQuery (tieCall ρ sort oi).sizeA := docsOk_of_good hd (by decide) (by decide)
  have hsize : oi.size = 10 := (hoi.ok L LG hd hf).size
  have hok := hoi.ok L LG hd hf
  obtain ⟨c, hc⟩ : ∃ c, c = tieCall ρ sort oi := ⟨_, rfl⟩
  have hnone : ∀ b : Nat, b ≠ 2 → b ≠ 9 → c.indices.get b = none := by
    intro b h2 h9
    have : oi.table b = none := by
      rw [hok.absent]
      intro t
      unfold postings
      rw [List.map_eq_nil_iff, List.filter_eq_nil_iff]
      intro d hdm
      simp only [tieDocs, List.mem_cons, List.not_mem_nil, or_false] at hdm
      rcases hdm with rfl | rfl <;> simp <;> omega
    rw [hc]
    simp [tieCall, suggestCall, builtIndices, this]
  have hsome : ∀ b : Nat, b = 2 ∨ b = 9 → c.indices.get b ≠ none := by
    intro b hb hn
    have h2 := hso.none b (by rw [hc] at hn; exact hn)
    rcases hb with rfl | rfl
    · exact absurd (h2 ⟨1, ["a", "b"]⟩ (by simp [tieDocs]) rfl) (by simp)
    · exact absurd (h2 ⟨0, ["a", "b", "c", "d", "v", "w", "x", "y", "z"]⟩ (by simp [tieDocs]) rfl) (by simp)
  have hthr : ∀ a b, c.thr a b = (jaccardMetric (f64Ops (-2 ^ 63))).threshold a 5 b := by
    intro a b; rw [hc]; rfl
  have t1 : c.thr (1 / 4) 2 = 2 := by rw [hthr]; decide +kernel
  have t2 : c.thr (1 / 4) 9 = 3 := by rw [hthr]; decide +kernel
  have t3 : c.thr tieScore 9 = 5 := by rw [hthr]; decide +kernel
  have hscore : ∀ b o, c.score b o = metricScore (f64Ops (-2 ^ 63)) (jaccardMetric (f64Ops (-2 ^ 63))) o 5 b := by
    intro b o; rw [hc]; rfl
  have s1 : c.score 2 2 = tieScore := by rw [hscore]; decide +kernel
  have s2 : c.score 9 4 = tieScore := by rw [hscore]; decide +kernel
  have f1 : foundAt c tieDocs tieQuery 2 (1 / 4) = {⟨1, tieScore⟩} := by
    unfold foundAt
    rw [t1]
    have : (tieDocs.filter fun d => decide ((d.terms.length : Int) = 2 ∧ (2 : Int) ≤ shared tieQuery d))
        = [⟨1, ["a", "b"]⟩] := by decide
    rw [this]
    have e : shared tieQuery ⟨1, ["a", "b"]⟩ = 2 := by decide
    simp only [List.map_cons, List.map_nil, candOf, e, List.length_cons, List.length_nil]
    rw [← s1]; rfl
  have f2 : foundAt c tieDocs tieQuery 9 (1 / 4) = {⟨0, tieScore⟩} := by
    unfold foundAt
    rw [t2]
    have : (tieDocs.filter fun d => decide ((d.terms.length : Int) = 9 ∧ (3 : Int) ≤ shared tieQuery d))
        = [⟨0, ["a", "b", "c", "d", "v", "w", "x", "y", "z"]⟩] := by decide
    rw [this]
    have e : shared tieQuery ⟨0, ["a", "b", "c", "d", "v", "w", "x", "y", "z"]⟩ = 4 := by decide
    simp only [List.map_cons, List.map_nil, candOf, e, List.length_cons, List.length_nil]
    rw [← s2]; rfl
  have f3 : foundAt c tieDocs tieQuery 9 tieScore = 0 := by
    unfold foundAt
    rw [t3]
    have : (tieDocs.filter fun d => decide ((d.terms.length : Int) = 9 ∧ (5 : Int) ≤ shared tieQuery d))
        = [] := by decide
    rw [this]; rfl
  have hsA : c.sizeA = 5 := by rw [hc]; rfl
  have k1 : ¬ c.skips (1 / 4) 2 := by
    rintro (h | h | h | h)
    · omega
    · omega
    · omega
    · exact hsome 2 (.inl rfl) h
  have k2 : ¬ c.skips (1 / 4) 9 := by
    rintro (h | h | h | h)
    · omega
    · omega
    · omega
    · exact hsome 9 (.inr rfl) h
  have k3 : ¬ c.skips tieScore 9 := by
    rintro (h | h | h | h)
    · omega
    · omega
    · omega
    · exact hsome 9 (.inr rfl) h
  have htop : c.topK = (1 : Nat) := by rw [hc]; rfl
  have hix : c.indices = builtIndices ρ sort oi tieQuery := by rw [hc]; rfl
  rw [← hix] at hso
  rw [← hc] at hdo ⊢
  obtain ⟨q0, e0⟩ := TopKQueue.new_ok (S := ℚ) 1
  have hq0 := TopKQueue.new_holds (by decide) e0
  have b1 : c.bMin = 2 := by
    have : c.bMin = (jaccardMetric (f64Ops (-2 ^ 63))).minY (1 / 4) 5 := by rw [hc]; rfl
    rw [this]; decide +kernel
  have b2 : c.bMax = 9 := by
    have : c.bMax = if (jaccardMetric (f64Ops (-2 ^ 63))).maxY (1 / 4) 5 ≥ oi.size then (oi.size : Int) - 1
        else (jaccardMetric (f64Ops (-2 ^ 63))).maxY (1 / 4) 5 := by rw [hc]; rfl
    rw [this, hsize]; decide +kernel
  have hsend : sendLoop 2 9 5 6 = [5, 6, 4, 7, 3, 8, 2, 9] := by
    simp [sendLoop]
  have hal : c.similarity = 1 / 4 := by rw [hc]; rfl
  -- everything has been sent and the channel is closed
  have hstart : c.Reachable ⟨[], true, [2, 9], 8, 1 / 4, q0, false, [.idle, .idle, .idle, .idle, .idle], none⟩ := by
    have h1 : c.start = .ok ⟨[5, 6, 4, 7, 3, 8, 2, 9], false, [], 8, 1 / 4, q0, false,
        [.idle, .idle, .idle, .idle, .idle], none⟩ := by
      unfold SConf.start
      rw [htop, e0, b1, b2, hsA, hal]
      simp only [Nat.cast_ofNat]
      rw [show (5 : Int) + 1 = 6 from rfl, hsend]
      rfl
    refine (SConf.Reachable.start h1).run ?_
    refine (run_send _ [] (by decide)).trans ?_
    refine Relation.ReflTransGen.head (.close rfl rfl rfl) ?_
    refine run_drop [5, 6, 4, 7, 3, 8] [2, 9] ?_
    intro b hb
    simp only [List.mem_cons, List.not_mem_nil, or_false] at hb
    rcases hb with rfl | rfl | rfl | rfl | rfl | rfl
    · exact hnone 5 (by decide) (by decide)
    · exact hnone 6 (by decide) (by decide)
    · exact hnone 4 (by decide) (by decide)
    · exact hnone 7 (by decide) (by decide)
    · exact hnone 3 (by decide) (by decide)
    · exact hnone 8 (by decide) (by decide)
  have hne : c.sizeA ≠ 0 := by omega
  have env : Nat → SkipList := fun _ => ⟨⟨[], 0⟩, 0, 0, 0, 0, 0, 0, false⟩
  constructor
  · -- both workers load the bound before the first commit
    have r1 := hstart.run run_take
    have r2 := r1.run run_take2
    obtain ⟨g1, g1h, r3⟩ := run_search (i := 0) (by decide) htop hso hdo env
      (s := ⟨[], true, [], 8, 1 / 4, q0, false, [.loaded 2 (1 / 4), .loaded 9 (1 / 4), .idle, .idle, .idle], none⟩)
      rfl rfl rfl hq0 k1 (by omega)
    have r4 := r2.run r3
    obtain ⟨g2, g2h, r5⟩ := run_search (i := 1) (by decide) htop hso hdo env
      (s := ⟨[], true, [], 8, SConf.raise (1 / 4) g1, g1, false, [.idle, .loaded 9 (1 / 4), .idle, .idle, .idle], none⟩)
      rfl rfl rfl g1h k2 (by omega)
    have r6 := (r4.run r5).run run_exit
    have hres := SuggestReturns.run hne r6 ⟨rfl, rfl, by simp⟩
    have hg : g2.getCandidates.1 = [⟨0, tieScore⟩] := by
      rw [f1, f2, zero_add] at g2h
      have h1 : g2.Holds 1 (([⟨0, tieScore⟩, ⟨1, tieScore⟩] : List (Candidate ℚ)) : Multiset (Candidate ℚ)) := by
        convert g2h using 1
        rw [add_comm]; rfl
      rw [(TopKQueue.getCandidates_spec h1).1]
      unfold best
      rw [List.mergeSort_of_pairwise (by simp [Candidate.betterEq])]
      rfl
    simp only [SState.result, List.filterMap_cons, Worker.err?, List.filterMap_nil, hg] at hres
    exact hres
  · -- the second worker sees the raised bound
    have r1 := hstart.run run_take
    obtain ⟨g1, g1h, r3⟩ := run_search (i := 0) (by decide) htop hso hdo env
      (s := ⟨[], true, [9], 8, 1 / 4, q0, false, [.loaded 2 (1 / 4), .idle, .idle, .idle, .idle], none⟩)
      rfl rfl rfl hq0 k1 (by omega)
    rw [f1, zero_add] at g1h
    have hraise : SConf.raise (1 / 4 : ℚ) g1 = tieScore := by
      have hlow : managerLowest g1 = some tieScore := by
        obtain ⟨l, hl⟩ : ∃ l, managerLowest g1 = some l := by
          have h1 := g1h.cap
          have h2 := g1h.size
          simp only [Multiset.card_singleton] at h2
          unfold managerLowest TopKQueue.isFull TopKQueue.getLowestScore
          simp [h1, h2]
        rw [hl]
        obtain ⟨W, w1, w2, w3, w, w4, w5⟩ := TopKQueue.managerLowest_spec g1h hl
        have := Multiset.mem_of_le w1 w4
        rw [Multiset.mem_singleton] at this
        rw [← w5, this]
      unfold SConf.raise
      rw [hlow]
      exact if_pos (by decide +kernel)
    have r4 := (r1.run r3).run run_take
    obtain ⟨g2, g2h, r5⟩ := run_search (i := 0) (by decide) htop hso hdo env
      (s := ⟨[], true, [], 8, SConf.raise (1 / 4) g1, g1, false, [.loaded 9 (SConf.raise (1 / 4) g1), .idle, .idle, .idle, .idle], none⟩)
      rfl rfl rfl g1h (by rw [hraise]; exact k3) (by rw [hraise]; omega)
    have r6 := (r4.run r5).run run_exit
    have hres := SuggestReturns.run hne r6 ⟨rfl, rfl, by simp⟩
    have hg : g2.getCandidates.1 = [⟨1, tieScore⟩] := by
      rw [hraise, f3, add_zero] at g2h
      rw [(TopKQueue.getCandidates_spec (offered := [⟨1, tieScore⟩]) g2h).1]
      exact best_singleton _
    simp only [SState.result, List.filterMap_cons, Worker.err?, List.filterMap_nil, hg] at hres
    exact hres

/-- There is an index of `tieDocs`. -/
example : ∃ (ρ : Roaring) (_ : ρ.Lawful) (G : Gob) (_ : G.Lawful) (oi : OpenIndex), IndexOf ρ G tieDocs oi := by
  obtain ⟨G, LG⟩ := gob_contract_satisfiable
  obtain ⟨ix, hix0⟩ : ∃ ix : Indices, ix = [none, none, some [("a", [1]), ("b", [1])], none, none, none, none, none, none,
      some [("a", [0]), ("b", [0]), ("c", [0]), ("d", [0]), ("v", [0]), ("w", [0]), ("x", [0]), ("y", [0]), ("z", [0])]] :=
    ⟨_, rfl⟩
  have hix : addDocuments (tieDocs.map fun d => (d.id, d.terms)) [] = .ok ix := by rw [hix0]; decide
  obtain ⟨h, hh⟩ : ∃ h, commitData toyRoaring (fun _ m => m) ix = .ok ([1, 1, 0, 0, 0, 0, 0, 0, 0, 0, 0], h) := by
    have h1 := codecEncode_one toyRoaring
    rw [hix0]
    simp only [commitData, commitOrder, List.zipIdx_cons, List.zipIdx_nil, List.flatMap_cons, List.flatMap_nil,
      Option.getD_some, Option.getD_none, List.map_nil, List.nil_append, List.map_cons, List.cons_append,
      commitEntries, h1 0 (by decide), h1 1 (by decide), bind, Except.bind, pure, Except.pure]
    exact ⟨_, rfl⟩
  obtain ⟨oi, h⟩ := indexOf_exists toyLawful LG (order := fun _ m => m) (fun _ _ => .refl _) tieDocs
    [[1, 1, 0, 0, 0, 0, 0, 0, 0, 0, 0]] [G.encode h] tieDocs_good.1 tieDocs_good.2
    ⟨ix, _, h, hix, hh, rfl, by simp⟩ (by decide)
  exact ⟨toyRoaring, toyLawful, G, LG, oi, h⟩

/-- Non-vacuity of C29–C31: on the example documents, Jaccard, similarity 1/2, top 2: the call terminates under every
schedule, and whenever it returns, it returns document 0 (score 1) and document 7 (score 2/3). -/
example : ∃ (ρ : Roaring) (oi : OpenIndex), ∀ sort : List (PList ρ) → List (PList ρ), (∀ r, (sort r).Perm r) →
    let c := suggestCall (realOps 0) (jaccardMetric (realOps 0)) ρ sort oi ["ab", "bc"] (1 / 2) 2
    ¬ SuggestPanics c ∧ ¬ SuggestBlocks c ∧ (∃ r, SuggestReturns c r) ∧
      ∀ r, SuggestReturns c r → r = .ok [⟨0, 1⟩, ⟨7, 2 / 3⟩] := by
  obtain ⟨ρ, L, G, LG, oi, hoi⟩ := example_indexOf
  obtain ⟨hd, hf⟩ := exampleDocs_good
  refine ⟨ρ, oi, fun sort hs => ?_⟩
  have hM : RealMetric 0 (1 / 2) ["ab", "bc"].length 4 (jaccardMetric (realOps 0)) jaccardSim :=
    .jaccard (by norm_num)
  have hmin : (jaccardMetric (realOps 0)).minY (1 / 2) (["ab", "bc"].length : Nat) ≤ 2 := by
    have := (hM.facts (by norm_num) (by norm_num) (by decide) (by decide)).minY_le
    simpa using this
  have h1 := C30_terminates_partial L LG hd hf hoi hs (q := ["ab", "bc"]) (.of_short (by decide)) (by decide) (α := 1 / 2)
    (by norm_num) (by norm_num) (n := 4) (by decide) (by norm_num) hM (K := 2) (by decide)
    ⟨⟨7, ["ab", "bc", "cd"]⟩, by simp [exampleDocs], by simp at hmin ⊢; omega⟩
  refine ⟨h1.1, h1.2.1, h1.2.2.2, fun r hr => ?_⟩
  rw [C29_suggest L LG hd hf hoi hs (q := ["ab", "bc"]) (.of_short (by decide)) (by decide) (α := 1 / 2)
    (by norm_num) (by norm_num) (n := 4) (by decide) (by norm_num) hM (K := 2) (by decide) hr]
  congr 1
  unfold suggestAnswer best
  have e : ((exampleDocs.filter fun d => @decide _ (Classical.propDecidable
      ((1 : ℝ) / 2 ≤ jaccardSim ["ab", "bc"].length d.terms.length (shared ["ab", "bc"] d)))).map
      fun d => (⟨d.id, jaccardSim ["ab", "bc"].length d.terms.length (shared ["ab", "bc"] d)⟩ : Candidate ℝ))
      = [⟨0, 1⟩, ⟨7, 2 / 3⟩] := by
    have s1 : shared ["ab", "bc"] ⟨0, ["ab", "bc"]⟩ = 2 := by decide
    have s2 : shared ["ab", "bc"] ⟨1, ["bc", "cd"]⟩ = 1 := by decide
    have s3 : shared ["ab", "bc"] ⟨7, ["ab", "bc", "cd"]⟩ = 2 := by decide
    have s4 : shared ["ab", "bc"] ⟨9, []⟩ = 0 := by decide
    simp only [exampleDocs, List.filter_cons, List.filter_nil, s1, s2, s3, s4]
    norm_num [jaccardSim, s1, s3]
  rw [e, List.mergeSort_of_pairwise]
  · rfl
  · simp [Candidate.betterEq]
    norm_num

/-- Non-vacuity of the negations of C30 on the example documents (at most 3 terms), Jaccard, similarity 1: a query of 4
terms blocks, a query of 5 terms panics. -/
example : ∃ (ρ : Roaring) (oi : OpenIndex), ∀ sort : List (PList ρ) → List (PList ρ),
    SuggestBlocks (suggestCall (f64Ops 0) (jaccardMetric (f64Ops 0)) ρ sort oi ["ab", "bc", "cd", "de"] 1 5) ∧
    SuggestPanics (suggestCall (f64Ops 0) (jaccardMetric (f64Ops 0)) ρ sort oi ["ab", "bc", "cd", "de", "ef"] 1 5) := by
  obtain ⟨ρ, L, G, LG, oi, hoi⟩ := example_indexOf
  obtain ⟨hd, hf⟩ := exampleDocs_good
  refine ⟨ρ, oi, fun sort => ⟨?_, ?_⟩⟩
  · have h1 : (jaccardMetric (f64Ops 0)).minY 1 (["ab", "bc", "cd", "de"].length : Nat) = 4 := by decide +kernel
    have h2 : (jaccardMetric (f64Ops 0)).maxY 1 (["ab", "bc", "cd", "de"].length : Nat) = 4 := by decide +kernel
    exact C30_blocks L LG hd hf hoi (K := 5) (m := 3) _ (by simp) (by decide)
      ⟨⟨7, ["ab", "bc", "cd"]⟩, by simp [exampleDocs], rfl⟩ (by rw [h1]; rfl) (by rw [h2]; decide) (by rw [h1]; decide)
  · have h1 : (jaccardMetric (f64Ops 0)).minY 1 (["ab", "bc", "cd", "de", "ef"].length : Nat) = 5 := by decide +kernel
    exact C30_panics L LG hd hf hoi (K := 5) _ (by simp) (by rw [h1]; decide) (by simp [exampleDocs])

/-! ### C32 -/

/-- **C32** (partial: for a similarity that is not NaN) The configuration is accepted iff `topK ≥ 1` and the similarity is
a number in (0, 1]; then it contains exactly the given values. -/
theorem C32_search_config_partial {M : Type} (query : String) (topK : Int) (metric : M) (sim : F64) (h : sim ≠ .nan) :
    ((∃ c, newSearchConfig query topK metric sim = .ok c) ↔ 1 ≤ topK ∧ ∃ x : ℚ, sim = .num x ∧ 0 < x ∧ x ≤ 1) ∧
    ∀ c, newSearchConfig query topK metric sim = .ok c → c = ⟨query, topK, metric, sim⟩ := by
  unfold newSearchConfig
  constructor
  · by_cases hk : topK ≤ 0
    · rw [if_pos hk]
      simp only [reduceCtorEq, exists_false, false_iff]
      rintro ⟨h1, _⟩
      omega
    · rw [if_neg hk]
      have hk' : 1 ≤ topK := by omega
      cases sim with
      | nan => exact absurd rfl h
      | negInf => simp [F64.le]
      | posInf => simp [F64.gt, F64.le]
      | num x =>
        simp only [F64.le, F64.gt, F64.num.injEq, exists_eq_left', hk', true_and]
        by_cases h1 : x ≤ 0
        · simp only [h1, decide_true, Bool.true_or, if_true, reduceCtorEq, exists_false, false_iff]
          rintro ⟨h2, _⟩
          linarith
        · by_cases h2 : x ≤ 1
          · simp only [h1, h2, decide_true, decide_false, Bool.not_true, Bool.or_self, Bool.false_eq_true, if_false,
              Except.ok.injEq, exists_eq', and_true, true_iff]
            linarith
          · simp [h1, h2]
  · intro c hc
    split at hc
    · simp at hc
    · split at hc
      · simp at hc
      · simpa using hc.symm

/-- **C32** is false for NaN: it passes the validation. -/
theorem C32_nan_accepted {M : Type} (query : String) (topK : Int) (metric : M) (h : 1 ≤ topK) :
    newSearchConfig query topK metric .nan = .ok ⟨query, topK, metric, .nan⟩ := by
  unfold newSearchConfig
  rw [if_neg (by omega)]
  simp [F64.le, F64.gt]

example : (∃ c, newSearchConfig "q" 5 () (.num (1 / 2)) = .ok c) ∧ (¬ ∃ c, newSearchConfig "q" 5 () (.num 0) = .ok c) ∧
    ¬ ∃ c, newSearchConfig "q" 0 () (.num 1) = .ok c := by
  refine ⟨(C32_search_config_partial _ _ _ _ (by simp)).1.2 ⟨by norm_num, _, rfl, by norm_num, by norm_num⟩, ?_, ?_⟩
  · rw [(C32_search_config_partial _ _ _ _ (by simp)).1]
    rintro ⟨_, x, h, h1, _⟩
    cases h
    norm_num at h1
  · rw [(C32_search_config_partial _ _ _ _ (by simp)).1]
    rintro ⟨h, _⟩
    omega

end Verif.Props
