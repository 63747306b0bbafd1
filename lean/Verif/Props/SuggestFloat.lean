import Verif.Proofs.SuggestSound
import Verif.Proofs.FloatFacts
import Verif.Props.Suggest
/-!
Property theorems C66, and C30 and C57 for float64 (fuzzy search with float64 arithmetic).

`f64Ops` (Verif/Model/Metric.lean) — IEEE 754 double precision; `F64Metric oob M sim` — `M` is one of the four metrics as
computed in float64 and `sim` the similarity it stands for (exact real numbers, Verif/Spec/Metric.lean).
-/
namespace Verif.Props
open Verif Spec

/-- **C57** (partial: with the margin) The float64 score is within 2^-50 of the similarity; a document that passes the
float64 threshold has a similarity of at least `α` up to a relative error of 2^-48; and `1 ≤ MinY ≤ |query|`,
`MinY ≤ MaxY`. Queries with at most 65535, documents with at most 32767 terms. -/
theorem C57_float_errors_partial {oob : Int} {M : Metric ℚ} {sim : Nat → Nat → Nat → ℝ} (hM : F64Metric oob M sim)
    {a b o : Nat} (ha1 : 1 ≤ a) (ha : a ≤ 65535) (hb1 : 1 ≤ b) (hb : b ≤ 32767) (hoa : o ≤ a) (hob : o ≤ b) :
    |((metricScore (f64Ops oob) M o a b : ℚ) : ℝ) - sim a b o| ≤ 1 / 2 ^ 50 ∧
    ∀ α : ℚ, 1 / 2 ^ 20 ≤ α → α ≤ 1 →
      (M.threshold α a b ≤ o → (α : ℝ) * (1 - 1 / 2 ^ 48) ≤ sim a b o) ∧
      (1 ≤ M.minY α a ∧ M.minY α a ≤ a ∧ M.minY α a ≤ M.maxY α a) := by
  have F := hM.facts ha1 ha
  refine ⟨F.score_err b o hb1 hb hoa hob, fun α h0 h1 => ?_⟩
  have h0' : 0 < α := lt_of_lt_of_le (by norm_num) h0
  exact ⟨F.thr_sound α h0' h1 b o hb1 hb hoa hob, F.minY_pos α h0' h1, F.minY_le α h0' h1, F.le_maxY α h0 h1⟩

section
variable {ρ : Roaring} (L : ρ.Lawful) {G : Gob} (LG : G.Lawful) {docs : List Doc} (hd : GoodDocs docs)
  (hf : FirstNonempty docs) {oi : OpenIndex} (hoi : IndexOf ρ G docs oi)
  {sort : List (PList ρ) → List (PList ρ)} (hs : ∀ r, (sort r).Perm r) {q : List String} (hq : q.length ≤ 0xFFFF)
  (hqd : q.Nodup)

/-- The bound stays in (0, 1]. -/
theorem float_bound {Env : Type} {c : SConf ℚ Env} {oob : Int} (hF : c.F = f64Ops oob) {sim : Nat → Nat → Nat → ℝ}
    (h : FloatFacts oob c.sizeA c.metric sim) (h0 : 0 < c.similarity) (h1 : c.similarity ≤ 1)
    (hn : c.indices.size ≤ 32768) {α : ℚ} (hα : Bound c α) : c.similarity ≤ α ∧ α ≤ 1 := by
  rcases hα with rfl | ⟨p, b, o, b1, b2, o1, o2, o3, rfl⟩
  · exact ⟨le_rfl, h1⟩
  · refine ⟨p.le, ?_⟩
    have := h.score_le_one b o b1 (by omega) o3 o2
    simp only [SConf.score, hF]
    exact this

theorem float_pos {Env : Type} {c : SConf ℚ Env} {oob : Int} (hF : c.F = f64Ops oob) {sim : Nat → Nat → Nat → ℝ}
    (h : FloatFacts oob c.sizeA c.metric sim) (h0 : 0 < c.similarity) (h1 : c.similarity ≤ 1)
    (hn : c.indices.size ≤ 32768) : PosLaws c :=
  ⟨h.minY_pos _ h0 h1, fun α hα b b1 b2 => by
    obtain ⟨p1, p2⟩ := float_bound hF h h0 h1 hn hα
    exact h.thr_pos α (h0.trans_le p1) p2 b b1 (by omega)⟩

include L LG hd hf hoi hs hq hqd in
/-- **C66** In float64 arithmetic, under every schedule: `Suggest` returns documents `ds` (with scores within 2^-50 of
the similarity), at most `K`, no document twice, in the order of decreasing similarity, each with a similarity of at
least `α` up to a relative error of 2^-48; and a document whose similarity exceeds `α` by that margin is either
returned, or `K` documents are returned which are all at least as similar. -/
theorem C66_float_suggest {oob : Int} {α : ℚ} (h0 : 1 / 2 ^ 20 ≤ α) (h1 : α ≤ 1)
    (hn : ∀ d ∈ docs, d.terms.length ≤ 32767) {M : Metric ℚ} {sim : Nat → Nat → Nat → ℝ} (hM : F64Metric oob M sim)
    {K : Nat} (hK : 1 ≤ K) {r : Except Err (List (Candidate ℚ))}
    (hr : SuggestReturns (suggestCall (f64Ops oob) M ρ sort oi q α K) r) :
    let simOf := fun d : Doc => sim q.length d.terms.length (shared q d)
    ∃ (cs : List (Candidate ℚ)) (ds : List Doc), r = .ok cs ∧
      List.Forall₂ (fun c d => c.key = d.id ∧ |(c.score : ℝ) - simOf d| ≤ 1 / 2 ^ 50) cs ds ∧
      ds.Nodup ∧ ds.length ≤ K ∧ ds.Pairwise (fun x y => simOf y ≤ simOf x) ∧
      (∀ d ∈ ds, d ∈ docs ∧ (α : ℝ) * (1 - 1 / 2 ^ 48) ≤ simOf d) ∧
      ∀ d ∈ docs, (α : ℝ) * (1 + 1 / 2 ^ 48) ≤ simOf d →
        d ∈ ds ∨ (ds.length = K ∧ ∀ x ∈ ds, simOf d ≤ simOf x) := by
  intro simOf
  have h0' : 0 < α := lt_of_lt_of_le (by norm_num) h0
  have h0R : (0 : ℝ) < α := by exact_mod_cast h0'
  have hsz : oi.size ≤ 32768 := by
    rw [(hoi.ok L LG hd hf).size]; exact maxCard_le (fun d h => by have := hn d h; omega)
  cases hr with
  | empty h =>
    have hq0 : q = [] := List.eq_nil_of_length_eq_zero h
    subst hq0
    refine ⟨[], [], rfl, .nil, .nil, by simp, .nil, by simp, ?_⟩
    intro d _ hle
    have : simOf d = 0 := by
      simp only [simOf, shared, List.filter_nil, List.length_nil]
      cases hM <;> simp [jaccardSim, diceSim, cosineSim, overlapSim]
    rw [this] at hle
    have : (0 : ℝ) < α * (1 + 1 / 2 ^ 48) := by positivity
    linarith
  | @run s h hre hfin =>
    have hpos : 1 ≤ q.length := by
      have : q.length ≠ 0 := h
      omega
    have F : FloatFacts oob q.length M sim := hM.facts hpos hq
    generalize hc : suggestCall (f64Ops oob) M ρ sort oi q α K = c at hre
    have cF : c.F = f64Ops oob := by rw [← hc]; rfl
    have cM : c.metric = M := by rw [← hc]; rfl
    have cA : c.sizeA = q.length := by rw [← hc]; rfl
    have cα : c.similarity = α := by rw [← hc]; rfl
    have cI : c.indices.size = oi.size := by rw [← hc]; rfl
    have F' : FloatFacts oob c.sizeA c.metric sim := by rw [cM, cA]; exact F
    have hp : PosLaws c := float_pos cF F' (by rw [cα]; exact h0') (by rw [cα]; exact h1) (by rw [cI]; exact hsz)
    have hb : ∀ α', Bound c α' → α ≤ α' ∧ α' ≤ 1 := fun α' hα' => by
      have := float_bound cF F' (by rw [cα]; exact h0') (by rw [cα]; exact h1) (by rw [cI]; exact hsz) hα'
      rwa [cα] at this
    have hso : SegmentsOk c.indices docs q := by rw [← hc]; exact segmentsOk L LG hd hf hoi hs (.of_short hq)
    have hdo : DocsOk docs q c.sizeA := by rw [cA]; exact docsOk_of_good hd hqd (by omega)
    obtain ⟨ds, r1, r2, r3, r4, r5, r6⟩ := final_sound hK (by rw [← hc]; rfl) hso hdo hp hre hfin
    have hthr : ∀ (α' : ℚ) (b : Nat), c.thr α' b = M.threshold α' q.length b := by
      intro α' b; simp only [SConf.thr, cM, cA]
    have hsh : ∀ d : Doc, shared q d ≤ q.length ∧ shared q d ≤ d.terms.length := fun d =>
      ⟨shared_le_query q d, shared_le_terms hqd⟩
    -- scores
    have herr : ∀ d ∈ docs, 1 ≤ d.terms.length → |(((candOf c q d).score : ℚ) : ℝ) - simOf d| ≤ 1 / 2 ^ 50 := by
      intro d hdm h1
      have := F.score_err d.terms.length (shared q d) h1 (hn d hdm) (hsh d).1 (hsh d).2
      simp only [candOf, SConf.score, cF, cM, cA]
      exact this
    have hgap : ∀ x ∈ docs, 1 ≤ x.terms.length → ∀ y ∈ docs, 1 ≤ y.terms.length → simOf y - 1 / 2 ^ 47 ≤ simOf x →
        simOf y ≤ simOf x := by
      intro x hx hx1 y hy hy1 hle
      by_contra hlt
      have := F.gap _ _ _ _ hx1 (hn x hx) (hsh x).1 (hsh x).2 hy1 (hn y hy) (hsh y).1 (hsh y).2 (not_le.1 hlt)
      simp only [simOf] at hle
      linarith
    have hds : ∀ d ∈ ds, d ∈ docs ∧ 1 ≤ d.terms.length := fun d h => ⟨(r5 d h).1, (r5 d h).2.1⟩
    refine ⟨ds.map (candOf c q), ds, r1, ?_, r2, r3, ?_, ?_, ?_⟩
    · rw [List.forall₂_map_left_iff, List.forall₂_same]
      intro d hdm
      exact ⟨rfl, herr d (hds d hdm).1 (hds d hdm).2⟩
    · have r4' : ds.Pairwise fun x y => (candOf c q x).betterEq (candOf c q y) = true := List.pairwise_map.1 r4
      refine List.Pairwise.imp_of_mem ?_ r4'
      intro x y hx hy hxy
      obtain ⟨x1, x2⟩ := hds x hx
      obtain ⟨y1, y2⟩ := hds y hy
      apply hgap x x1 x2 y y1 y2
      have e1 := abs_le.1 (herr x x1 x2)
      have e2 := abs_le.1 (herr y y1 y2)
      have hle : (candOf c q y).score ≤ (candOf c q x).score := by
        rcases betterEq_iff.1 hxy with h | ⟨h, _⟩
        · exact h.le
        · exact h.symm.le
      have hle' : (((candOf c q y).score : ℚ) : ℝ) ≤ (((candOf c q x).score : ℚ) : ℝ) := by exact_mod_cast hle
      have k : (1 / 2 ^ 50 : ℝ) + 1 / 2 ^ 50 ≤ 1 / 2 ^ 47 := by norm_num
      linarith [e1.2, e2.1]
    · intro d hdm
      obtain ⟨d1, d2, α', hα', ht⟩ := r5 d hdm
      refine ⟨d1, ?_⟩
      obtain ⟨p1, p2⟩ := hb α' hα'
      rw [hthr] at ht
      have := F.thr_sound α' (h0'.trans_le p1) p2 _ _ d2 (hn d d1) (hsh d).1 (hsh d).2 ht
      refine le_trans ?_ this
      have p1' : (α : ℝ) ≤ α' := by exact_mod_cast p1
      exact mul_le_mul_of_nonneg_right p1' (by norm_num)
    · intro d hdm hle
      by_cases hin : d ∈ ds
      · exact .inl hin
      right
      have hlen : 1 ≤ d.terms.length := by
        by_contra hc0
        have hz : shared q d = 0 := by have := (hsh d).2; omega
        have : simOf d = 0 := by
          simp only [simOf, hz]
          exact F.zero _
        rw [this] at hle
        have : (0 : ℝ) < α * (1 + 1 / 2 ^ 48) := by positivity
        linarith
      obtain ⟨t1, t2, t3⟩ := F.complete α h0 h1 _ _ hlen (hn d hdm) (hsh d).1 (hsh d).2 hle
      have hmem : (d.terms.length : Int) ∈ allSizes c := by
        have hcard : d.terms.length < oi.size := by
          have := hso.card d hdm (by intro e; rw [e] at hlen; simp at hlen)
          rwa [cI] at this
        rw [allSizes, mem_sendLoop]
        simp only [SConf.bMin, SConf.bMax, cM, cA, cα, cI]
        split <;> omega
      rcases r6 d hdm hmem hin with ⟨k1, k2⟩ | ⟨α', hα', ht, k⟩
      · refine ⟨k1, fun x hx => ?_⟩
        obtain ⟨x1, x2⟩ := hds x hx
        apply hgap x x1 x2 d hdm hlen
        have e1 := abs_le.1 (herr x x1 x2)
        have e2 := abs_le.1 (herr d hdm hlen)
        have hle : (candOf c q d).score ≤ (candOf c q x).score := by
          rcases betterEq_iff.1 (k2 x hx) with h | ⟨h, _⟩
          · exact h.le
          · exact h.symm.le
        have hle' : (((candOf c q d).score : ℚ) : ℝ) ≤ (((candOf c q x).score : ℚ) : ℝ) := by exact_mod_cast hle
        have k : (1 / 2 ^ 50 : ℝ) + 1 / 2 ^ 50 ≤ 1 / 2 ^ 47 := by norm_num
        linarith [e1.2, e2.1]
      · rw [hthr] at ht
        obtain ⟨p1, p2⟩ := hb α' hα'
        have hlt : simOf d < (α' : ℝ) * (1 + 1 / 2 ^ 48) := by
          by_contra hcon
          exact ht (F.complete α' (h0.trans p1) p2 _ _ hlen (hn d hdm) (hsh d).1 (hsh d).2 (not_lt.1 hcon)).1
        rcases k with k | ⟨k1, k2⟩
        · rw [k, cα] at hlt
          exact absurd hle (not_le.2 hlt)
        · refine ⟨k1, fun x hx => ?_⟩
          obtain ⟨x1, x2⟩ := hds x hx
          apply hgap x x1 x2 d hdm hlen
          have e1 := abs_le.1 (herr x x1 x2)
          have k3 : (α' : ℝ) ≤ (((candOf c q x).score : ℚ) : ℝ) := by exact_mod_cast k2 x hx
          have p2' : (α' : ℝ) ≤ 1 := by exact_mod_cast p2
          have k : (1 / 2 ^ 50 : ℝ) + 1 / 2 ^ 48 ≤ 1 / 2 ^ 47 := by norm_num
          have : (α' : ℝ) * (1 / 2 ^ 48) ≤ 1 / 2 ^ 48 := mul_le_of_le_one_left (by norm_num) p2'
          linarith [e1.2]

include L LG hd hf hoi hs hq hqd in
/-- **C30** (partial) In float64 arithmetic as well: if some document has at least `MinY(α, |query|)` terms, `Suggest`
neither panics nor blocks nor runs for ever, under any schedule. -/
theorem C30_float_terminates_partial {oob : Int} {α : ℚ} (h0 : 1 / 2 ^ 20 ≤ α) (h1 : α ≤ 1)
    (hn : ∀ d ∈ docs, d.terms.length ≤ 32767) {M : Metric ℚ} {sim : Nat → Nat → Nat → ℝ} (hM : F64Metric oob M sim)
    {K : Nat} (hK : 1 ≤ K) (hlong : ∃ d ∈ docs, M.minY α q.length ≤ d.terms.length) :
    let c := suggestCall (f64Ops oob) M ρ sort oi q α K
    ¬ SuggestPanics c ∧ ¬ SuggestBlocks c ∧ (∀ f : Nat → SState ℚ, ¬ ∀ i, c.Step (f i) (f (i + 1))) ∧
      ∃ r, SuggestReturns c r := by
  intro c
  have h0' : 0 < α := lt_of_lt_of_le (by norm_num) h0
  have hsize : oi.size = maxCard docs := (hoi.ok L LG hd hf).size
  have hsz : oi.size ≤ 32768 := by
    rw [hsize]; exact maxCard_le (fun d h => by have := hn d h; omega)
  by_cases hz : q.length = 0
  · exact ⟨fun h => by cases h <;> contradiction, fun h => h.1 hz, no_infinite_run, _, .empty hz⟩
  have F : FloatFacts oob q.length M sim := hM.facts (by omega) hq
  have hp : PosLaws c := float_pos (c := c) rfl F h0' h1 hsz
  have hcap : c.bMin ≤ c.bMax := by
    obtain ⟨d, hdm, hle⟩ := hlong
    have h2 := le_maxCard hdm
    have h3 := F.le_maxY α h0 h1
    show M.minY α q.length ≤ if M.maxY α q.length ≥ oi.size then (oi.size : Int) - 1 else M.maxY α q.length
    split <;> omega
  haveI : Nonempty (Nat → SkipList) := ⟨fun _ => ⟨⟨[], 0⟩, 0, 0, 0, 0, 0, 0, false⟩⟩
  exact call_terminates (Env := Nat → SkipList) hK rfl (segmentsOk L LG hd hf hoi hs (.of_short hq)) (docsOk_of_good hd hqd (by omega)) hp hz hcap

end

/-- Non-vacuity: the call returns for the example documents; with similarity 0.4 (as a float64), top 2, one of the
documents 0 ("ab", "bc"; similarity 1) and 7 is certainly returned: the hypotheses and the margin are met. -/
example : ∃ (ρ : Roaring) (_ : ρ.Lawful) (G : Gob) (_ : G.Lawful) (oi : OpenIndex) (r : Except Err (List (Candidate ℚ))),
    IndexOf ρ G exampleDocs oi ∧
    SuggestReturns (suggestCall (f64Ops 0) (jaccardMetric (f64Ops 0)) ρ id oi ["ab", "bc"] (rnd53 (4 / 10)) 2) r ∧
    (∀ d ∈ exampleDocs, d.terms.length ≤ 32767) ∧ (1 / 2 ^ 20 : ℚ) ≤ rnd53 (4 / 10) ∧
    ((rnd53 (4 / 10) : ℚ) : ℝ) * (1 + 1 / 2 ^ 48) ≤ jaccardSim 2 2 (shared ["ab", "bc"] ⟨0, ["ab", "bc"]⟩) := by
  obtain ⟨ρ, L, G, LG, oi, hoi⟩ := example_indexOf
  obtain ⟨hd, hf⟩ := exampleDocs_good
  have e : rnd53 (4 / 10) = 3602879701896397 / 9007199254740992 := by decide +kernel
  have hn : ∀ d ∈ exampleDocs, d.terms.length ≤ 32767 := by decide
  obtain ⟨r, hr⟩ := (C30_float_terminates_partial L LG hd hf hoi (sort := id) (fun _ => .refl _) (q := ["ab", "bc"])
    (by decide) (by decide) (oob := 0) (α := rnd53 (4 / 10)) (by rw [e]; norm_num) (by rw [e]; norm_num) hn .jaccard
    (K := 2) (by decide) ⟨⟨7, ["ab", "bc", "cd"]⟩, by decide, by
      show (jaccardMetric (f64Ops 0)).minY (rnd53 (4 / 10)) 2 ≤ 3
      decide +kernel⟩).2.2.2
  refine ⟨ρ, L, G, LG, oi, r, hoi, hr, hn, by rw [e]; norm_num, ?_⟩
  have e2 : shared ["ab", "bc"] ⟨0, ["ab", "bc"]⟩ = 2 := by decide
  rw [e2, e]
  norm_num [jaccardSim]

/-! ### Without the margin -/

/-- One document with 24 terms. -/
def lossDocs : List Doc := [⟨0, ["a", "b", "c", "d", "e", "f", "g", "h", "i", "j", "k", "l", "m", "n", "o", "p", "q", "r",
  "s", "t", "u", "v", "w", "x"]⟩]

/-- Ten terms, nine of them in the document. -/
def lossQuery : List String := ["a", "b", "c", "d", "e", "f", "g", "h", "i", "zz"]

theorem lossDocs_good : GoodDocs lossDocs ∧ FirstNonempty lossDocs :=
  ⟨⟨by decide, by decide, by decide, by decide, by decide⟩, by
    intro d hd
    simp only [lossDocs, List.head?_cons, Option.some.injEq] at hd
    subst hd
    simp⟩

/-- No value of the bound lets the document pass. -/
def lossCheck : Bool :=
  let F := f64Ops (-2 ^ 63)
  let M := jaccardMetric F
  let α := rnd53 (36 / 100)
  decide (9 < M.threshold α 10 24) &&
  (List.range 25).all fun b => (List.range 11).all fun o =>
    decide (metricScore F M o 10 b ≤ α) || decide (9 < M.threshold (metricScore F M o 10 b) 10 24)

theorem lossCheck_true : lossCheck = true := by decide +kernel

/-- **C66** without the margin is false: at similarity 0.36 the only document has a similarity (9/25) of at least the
float64 number 0.36, but `Suggest` returns nothing, under every schedule. -/
theorem C66_float_misses {ρ : Roaring} (L : ρ.Lawful) {G : Gob} (LG : G.Lawful) {oi : OpenIndex}
    (hoi : IndexOf ρ G lossDocs oi) {sort : List (PList ρ) → List (PList ρ)} (hs : ∀ r, (sort r).Perm r) {K : Nat}
    (hK : 1 ≤ K) :
    let c := suggestCall (f64Ops (-2 ^ 63)) (jaccardMetric (f64Ops (-2 ^ 63))) ρ sort oi lossQuery (rnd53 (36 / 100)) K
    (∀ d ∈ lossDocs, ((rnd53 (36 / 100) : ℚ) : ℝ) ≤ jaccardSim lossQuery.length d.terms.length (shared lossQuery d)) ∧
    SuggestReturns c (.ok []) ∧ ∀ r, SuggestReturns c r → r = .ok [] := by
  intro c
  obtain ⟨hd, hf⟩ := lossDocs_good
  have e : rnd53 (36 / 100) = 6485183463413514 / 18014398509481984 := by decide +kernel
  have hn : ∀ d ∈ lossDocs, d.terms.length ≤ 32767 := by decide
  have h0 : (1 / 2 ^ 20 : ℚ) ≤ rnd53 (36 / 100) := by rw [e]; norm_num
  have h1 : rnd53 (36 / 100) ≤ 1 := by rw [e]; norm_num
  have hq : lossQuery.length ≤ 0xFFFF := by decide
  have hqd : lossQuery.Nodup := by decide
  have hlen : lossQuery.length = 10 := by decide
  have hsize : oi.size = 25 := (hoi.ok L LG hd hf).size
  have all : ∀ r, SuggestReturns c r → r = .ok [] := by
    intro r hr
    cases hr with
    | empty h => rfl
    | @run s h hre hfin =>
      have F : FloatFacts (-2 ^ 63) lossQuery.length (jaccardMetric (f64Ops (-2 ^ 63))) jaccardSim :=
        F64Metric.jaccard.facts (by decide) hq
      have hp : PosLaws c := float_pos (c := c) rfl F (lt_of_lt_of_le (by norm_num) h0) h1
        (show oi.size ≤ 32768 by omega)
      obtain ⟨ds, r1, _, _, _, r5, _⟩ := final_sound hK rfl (segmentsOk L LG hd hf hoi hs (.of_short hq))
        (docsOk_of_good hd hqd (by omega)) hp hre hfin
      cases ds with
      | nil => exact r1
      | cons d ds =>
        exfalso
        obtain ⟨d1, d2, α, hα, ht⟩ := r5 d List.mem_cons_self
        have hdl : d.terms.length = 24 ∧ shared lossQuery d = 9 := by
          simp only [lossDocs, List.mem_cons, List.not_mem_nil, or_false] at d1
          subst d1
          decide
        rw [hdl.1, hdl.2] at ht
        have ht' : (jaccardMetric (f64Ops (-2 ^ 63))).threshold α 10 24 ≤ 9 := ht
        have hc := lossCheck_true
        simp only [lossCheck, Bool.and_eq_true, decide_eq_true_eq, List.all_eq_true, List.mem_range, Bool.or_eq_true] at hc
        rcases hα with rfl | ⟨p, b, o, b1, b2, o1, o2, o3, rfl⟩
        · have := hc.1
          exact absurd ht' (not_le.2 this)
        · have b2' : b < oi.size := b2
          have o3' : o ≤ 10 := by rw [← hlen]; exact o3
          rcases hc.2 b (by omega) o (by omega) with h | h
          · exact absurd p (not_lt.2 h)
          · exact absurd ht' (not_le.2 h)
  refine ⟨?_, ?_, all⟩
  · intro d hdm
    simp only [lossDocs, List.mem_cons, List.not_mem_nil, or_false] at hdm
    have hsh : shared lossQuery d = 9 := by rw [hdm]; decide
    have hl : d.terms.length = 24 := by rw [hdm]; decide
    rw [hsh, hl, hlen, e]
    norm_num [jaccardSim]
  · obtain ⟨r, hr⟩ := (C30_float_terminates_partial L LG hd hf hoi hs hq hqd h0 h1 hn .jaccard hK
      ⟨_, List.mem_cons_self, by
        show (jaccardMetric (f64Ops (-2 ^ 63))).minY (rnd53 (36 / 100)) 10 ≤ 24
        decide +kernel⟩).2.2.2
    have := all r hr
    rw [this] at hr
    exact hr

/-- Non-vacuity: there is an opened index of this document. -/
theorem loss_indexOf : ∃ (ρ : Roaring) (_ : ρ.Lawful) (G : Gob) (_ : G.Lawful) (oi : OpenIndex), IndexOf ρ G lossDocs oi := by
  obtain ⟨G, LG⟩ := gob_contract_satisfiable
  obtain ⟨ix, hix0⟩ : ∃ ix : Indices, ix = List.replicate 24 none ++ [some [("a", [0]), ("b", [0]), ("c", [0]), ("d", [0]), ("e", [0]), ("f", [0]), ("g", [0]), ("h", [0]), ("i", [0]), ("j", [0]), ("k", [0]), ("l", [0]), ("m", [0]), ("n", [0]), ("o", [0]), ("p", [0]), ("q", [0]), ("r", [0]), ("s", [0]), ("t", [0]), ("u", [0]), ("v", [0]), ("w", [0]), ("x", [0])]] := ⟨_, rfl⟩
  have hix : addDocuments (lossDocs.map fun d => (d.id, d.terms)) [] = .ok ix := by rw [hix0]; decide
  obtain ⟨h, hh⟩ : ∃ h, commitData toyRoaring (fun _ m => m) ix = .ok (List.replicate 24 0, h) := by
    have h1 := codecEncode_one toyRoaring
    rw [hix0]
    simp only [commitData, commitOrder, List.replicate, List.cons_append, List.zipIdx_cons, List.zipIdx_nil,
      List.flatMap_cons, List.flatMap_nil,
      Option.getD_some, Option.getD_none, List.map_nil, List.nil_append, List.map_cons,
      commitEntries, h1 0 (by decide), bind, Except.bind, pure, Except.pure]
    exact ⟨_, rfl⟩
  obtain ⟨oi, h⟩ := indexOf_exists toyLawful LG (order := fun _ m => m) (fun _ _ => .refl _) lossDocs
    [List.replicate 24 0] [G.encode h] lossDocs_good.1 lossDocs_good.2
    ⟨ix, _, h, hix, hh, rfl, by simp⟩ (by decide)
  exact ⟨toyRoaring, toyLawful, G, LG, oi, h⟩

end Verif.Props
