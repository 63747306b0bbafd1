import Verif.Proofs.SuggestFinal
import Verif.Proofs.Metric
import Verif.Props.Index
/- The real metrics and the opened index satisfy what the suggester needs. -/
namespace Verif
open Spec
open Verif.Props (packed FirstNonempty Writes IndexOf C24_search)

/-- The similarity search metrics in exact arithmetic with the similarity they compute, for a query with `a` terms and
similarity `α`; `n` bounds the number of per-cardinality indices. The side conditions are those of C28. -/
inductive RealMetric (oob : Int) (α : ℝ) (a n : Nat) : Metric ℝ → (Nat → Nat → Nat → ℝ) → Prop
  | jaccard : (a : ℝ) / α < 2 ^ 63 → RealMetric oob α a n (jaccardMetric (realOps oob)) jaccardSim
  | dice : (2 - α) / α * (a : ℝ) < 2 ^ 63 → RealMetric oob α a n (diceMetric (realOps oob)) diceSim
  | cosine : (a : ℝ) / (α * α) < 2 ^ 63 → RealMetric oob α a n (cosineMetric (realOps oob)) cosineSim
  | overlap : n ≤ 32768 → RealMetric oob α a n (overlapMetric (realOps oob)) overlapSim

/-- What follows for each of them. -/
structure RealFacts (oob : Int) (α : ℝ) (a : Nat) (n : Nat) (M : Metric ℝ) (sim : Nat → Nat → Nat → ℝ) : Prop where
  score : ∀ b o : Nat, metricScore (realOps oob) M o a b = sim a b o
  le_one : ∀ b o : Nat, 1 ≤ b → o ≤ a → o ≤ b → sim a b o ≤ 1
  thr : ∀ α' : ℝ, 0 < α' → α' ≤ 1 → ∀ b o : Nat, 1 ≤ b → b < 2 ^ 31 → o ≤ a → o ≤ b →
    (α' ≤ sim a b o ↔ M.threshold α' a b ≤ o)
  thr_pos : ∀ α' : ℝ, 0 < α' → α' ≤ 1 → ∀ b : Nat, 1 ≤ b → b < 2 ^ 31 → 1 ≤ M.threshold α' a b
  bounds : ∀ b o : Nat, 1 ≤ b → b < n → o ≤ a → o ≤ b → α ≤ sim a b o → M.minY α a ≤ b ∧ (b : Int) ≤ M.maxY α a
  minY_pos : 1 ≤ M.minY α a
  minY_le : M.minY α a ≤ a
  minY_maxY : M.minY α a ≤ M.maxY α a
  zero : sim a 0 0 = 0

theorem one_le_ceil {x : ℝ} (h : 0 < x) : 1 ≤ ⌈x⌉ := by
  have : 0 < ⌈x⌉ := Int.ceil_pos.2 h
  omega

theorem RealMetric.facts {oob : Int} {α : ℝ} {a n : Nat} {M : Metric ℝ} {sim : Nat → Nat → Nat → ℝ}
    (h : RealMetric oob α a n M sim) (h0 : 0 < α) (h1 : α ≤ 1) (ha : 1 ≤ a) (ha' : a < 2 ^ 31) :
    RealFacts oob α a n M sim := by
  have ha2 : (1 : ℝ) ≤ a := by exact_mod_cast ha
  have ha3 : (a : ℝ) < 2 ^ 31 := by exact_mod_cast ha'
  cases h with
  | jaccard hr =>
    have e1 : (jaccardMetric (realOps oob)).minY α a = ⌈α * (a : ℝ)⌉ := by
      have : (jaccardMetric (realOps oob)).minY α a = (realOps oob).ceilInt (α * (a : ℝ)) := by
        simp [jaccardMetric, realOps]
      rw [this]
      exact ceilInt_eq (by positivity) (lt_of_le_of_lt (b := 2 ^ 31) (by nlinarith) (by norm_num))
    refine ⟨fun _ _ => score_jaccard, fun b o _ => sim_le_one_jaccard ha, ?_, ?_, ?_, ?_, ?_, ?_, by simp [jaccardSim]⟩
    · intro α' p1 p2 b o hb hb' hoa hob
      rw [thr_jaccard p1 p2 ha' hb']; exact sim_jaccard_iff p1 ha hob
    · intro α' p1 p2 b hb hb'
      rw [thr_jaccard p1 p2 ha' hb']
      exact one_le_ceil (by positivity)
    · intro b o hb _ hoa hob hs
      exact bounds_jaccard h0 h1 ha hb ha' hoa hob hr hs
    · rw [e1]; exact one_le_ceil (by positivity)
    · rw [e1, cast_ceil_le]; nlinarith
    · have := bounds_jaccard (oob := oob) (o := a) h0 h1 ha ha ha' le_rfl le_rfl hr (by simp [jaccardSim]; rw [div_self (by linarith)]; exact h1)
      exact this.1.trans this.2
  | dice hr =>
    have h2a : 0 < 2 - α := by linarith
    have hq : α / (2 - α) ≤ 1 := by rw [div_le_one h2a]; linarith
    have e1 : (diceMetric (realOps oob)).minY α a = ⌈α / (2 - α) * (a : ℝ)⌉ := by
      have : (diceMetric (realOps oob)).minY α a = (realOps oob).ceilInt (α / (2 - α) * (a : ℝ)) := by
        simp [diceMetric, realOps]
      rw [this]
      exact ceilInt_eq (by positivity) (lt_of_le_of_lt (b := 2 ^ 31) (by nlinarith) (by norm_num))
    refine ⟨fun _ _ => score_dice, fun b o _ => sim_le_one_dice ha, ?_, ?_, ?_, ?_, ?_, ?_, by simp [diceSim]⟩
    · intro α' p1 p2 b o hb hb' hoa hob
      rw [thr_dice p1 p2 ha' hb']; exact sim_dice_iff ha
    · intro α' p1 p2 b hb hb'
      rw [thr_dice p1 p2 ha' hb']
      exact one_le_ceil (by positivity)
    · intro b o hb _ hoa hob hs
      exact bounds_dice h0 h1 ha hb ha' hoa hob hr hs
    · rw [e1]; exact one_le_ceil (by positivity)
    · rw [e1, cast_ceil_le]; nlinarith
    · have := bounds_dice (oob := oob) (o := a) h0 h1 ha ha ha' le_rfl le_rfl hr (by
        simp only [diceSim]; rw [show (2 : ℝ) * a / (a + a) = 1 by field_simp; ring]; exact h1)
      exact this.1.trans this.2
  | cosine hr =>
    have e1 : (cosineMetric (realOps oob)).minY α a = ⌈α * α * (a : ℝ)⌉ := by
      have : (cosineMetric (realOps oob)).minY α a = (realOps oob).ceilInt (α * α * (a : ℝ)) := by
        simp [cosineMetric, realOps]
      rw [this]
      exact ceilInt_eq (by positivity) (lt_of_le_of_lt (b := 2 ^ 31) (by nlinarith [mul_pos h0 h0]) (by norm_num))
    refine ⟨fun _ _ => score_cosine, fun b o hb => sim_le_one_cosine ha hb, ?_, ?_, ?_, ?_, ?_, ?_, by simp [cosineSim]⟩
    · intro α' p1 p2 b o hb hb' hoa hob
      rw [thr_cosine p1 p2 ha' hb']; exact sim_cosine_iff ha hb
    · intro α' p1 p2 b hb hb'
      rw [thr_cosine p1 p2 ha' hb']
      have hb2 : (1 : ℝ) ≤ b := by exact_mod_cast hb
      exact one_le_ceil (mul_pos p1 (Real.sqrt_pos.2 (by nlinarith)))
    · intro b o hb _ hoa hob hs
      exact bounds_cosine h0 h1 ha hb ha' hoa hob hr hs
    · rw [e1]; exact one_le_ceil (by positivity)
    · rw [e1, cast_ceil_le]
      have : α * α ≤ 1 := by nlinarith
      nlinarith
    · have := bounds_cosine (oob := oob) (o := a) h0 h1 ha ha ha' le_rfl le_rfl hr (by
        simp only [cosineSim]; rw [Real.sqrt_mul_self (by linarith), div_self (by linarith)]; exact h1)
      exact this.1.trans this.2
  | overlap hn =>
    refine ⟨fun _ _ => score_overlap, fun b o hb => sim_le_one_overlap ha hb, ?_, ?_, ?_, le_refl (1 : Int), ?_, ?_, by simp [overlapSim]⟩
    · intro α' p1 p2 b o hb hb' hoa hob
      rw [thr_overlap p1 p2 ha']; exact sim_overlap_iff ha hb
    · intro α' p1 p2 b hb hb'
      rw [thr_overlap p1 p2 ha']
      have hb2 : (1 : ℝ) ≤ b := by exact_mod_cast hb
      exact one_le_ceil (mul_pos p1 (lt_min (by linarith) (by linarith)))
    · intro b o hb hb' hoa hob hs
      refine ⟨?_, ?_⟩
      · show (1 : Int) ≤ b; omega
      · show (b : Int) ≤ 32767; omega
    · show (1 : Int) ≤ a; omega
    · show (1 : Int) ≤ 32767; omega

open Classical in
/-- The metric laws for the real metrics. -/
theorem RealFacts.laws {Env : Type} {c : SConf ℝ Env} {oob : Int} {sim : Nat → Nat → Nat → ℝ}
    (hF : c.F = realOps oob) (h : RealFacts oob c.similarity c.sizeA c.indices.size c.metric sim)
    (h0 : 0 < c.similarity) (h1 : c.similarity ≤ 1) (hn : c.indices.size ≤ 2 ^ 31) :
    MetricLaws c (fun b o => 1 ≤ b ∧ c.similarity ≤ sim c.sizeA b o) := by
  have hsc : ∀ b o : Nat, c.score b o = sim c.sizeA b o := by
    intro b o; rw [← h.score b o]; simp only [SConf.score, hF]
  have hbd : ∀ α, Bound c α → 0 < α ∧ α ≤ 1 ∧ c.similarity ≤ α := by
    rintro α (rfl | ⟨p, b, o, b1, b2, o1, o2, o3, rfl⟩)
    · exact ⟨h0, h1, le_rfl⟩
    · refine ⟨h0.trans p, ?_, p.le⟩
      rw [hsc]; exact h.le_one b o b1 o3 o2
  refine ⟨⟨h.minY_pos, ?_⟩, fun b o hb => hb.1, ?_, ?_, ?_, ?_⟩
  · intro α hα b b1 b2
    obtain ⟨p1, p2, _⟩ := hbd α hα
    exact h.thr_pos α p1 p2 b b1 (by omega)
  · intro b o b1 b2 o1 o2 hacc
    exact h.bounds b o b1 b2 o2 o1 hacc.2
  · intro b o b1 b2 o1 o2 hacc
    rw [hsc]; exact hacc.2
  · intro α hα b o b1 b2 o1 o2 hacc hle
    obtain ⟨p1, p2, _⟩ := hbd α hα
    rw [hsc] at hle
    exact (h.thr α p1 p2 b o b1 (by omega) o2 o1).1 hle
  · intro α hα b o b1 b2 o1 o2 hthr _
    obtain ⟨p1, p2, p3⟩ := hbd α hα
    exact ⟨b1, p3.trans ((h.thr α p1 p2 b o b1 (by omega) o2 o1).2 hthr)⟩

/-- The laws for the exact metric. -/
theorem exact_laws {Env : Type} {c : SConf ℝ Env} {oob : Int} (hF : c.F = realOps oob)
    (hM : c.metric = exactMetric (realOps oob)) (h1 : c.similarity ≤ 1) (ha : 1 ≤ c.sizeA) :
    MetricLaws c (fun b o => 1 ≤ b ∧ b = c.sizeA ∧ o = c.sizeA) := by
  have hsc : ∀ b o : Nat, c.score b o = 1 := by
    intro b o; simp only [SConf.score, hF, hM]; exact score_exact
  refine ⟨⟨?_, ?_⟩, fun b o hb => hb.1, ?_, ?_, ?_, ?_⟩
  · simp only [SConf.bMin, hM, exactMetric]; omega
  · intro α hα b b1 b2
    simp only [SConf.thr, hM, exactMetric]; omega
  · intro b o b1 b2 o1 o2 hacc
    simp only [hM, exactMetric]; omega
  · intro b o b1 b2 o1 o2 hacc
    rw [hsc]; exact h1
  · intro α hα b o b1 b2 o1 o2 hacc hle
    simp only [SConf.thr, hM, exactMetric]; omega
  · intro α hα b o b1 b2 o1 o2 hthr hb1
    simp only [SConf.thr, hM, exactMetric] at hthr
    -- the overlap is the whole query, and not larger than the document
    have hmax : c.bMax ≤ c.sizeA := by
      simp only [SConf.bMax, hM, exactMetric]; split <;> omega
    simp only [SConf.bMin, hM, exactMetric] at hb1
    refine ⟨b1, by omega, by omega⟩

/-! ### The opened index -/

theorem le_maxCard {docs : List Doc} {d : Doc} (h : d ∈ docs) : d.terms.length < maxCard docs := by
  induction docs with
  | nil => simp at h
  | cons x docs ih =>
    simp only [maxCard, List.foldr_cons] at ih ⊢
    rcases List.mem_cons.1 h with rfl | h
    · omega
    · have := ih h; omega

theorem maxCard_le {docs : List Doc} {n : Nat} (h : ∀ d ∈ docs, d.terms.length < n) : maxCard docs ≤ n := by
  induction docs with
  | nil => simp [maxCard]
  | cons x docs ih =>
    have h1 := ih (fun d hd => h d (List.mem_cons_of_mem _ hd))
    have h2 := h x List.mem_cons_self
    simp only [maxCard, List.foldr_cons] at h1 ⊢
    omega

/-- An opened index satisfies what the suggester and the autocomplete need. -/
theorem segmentsOk {κ : Type} {ρ : Roaring} (L : ρ.Lawful) {G : Gob} (LG : G.Lawful) {docs : List Doc}
    (hd : GoodDocs docs) (hf : FirstNonempty docs) {oi : OpenIndex} (hoi : IndexOf ρ G docs oi)
    {sort : List (PList ρ) → List (PList ρ)} (hs : ∀ r, (sort r).Perm r) {q : List String} (hq : FewCommon docs q) :
    SegmentsOk (builtIndices (κ := κ) ρ sort oi q) docs q := by
  have hok := hoi.ok L LG hd hf
  have hget : ∀ b : Nat, (builtIndices (κ := κ) ρ sort oi q).get b = (oi.table b).map fun tab env collect T k =>
      search ρ (cpMerge collect sort) oi.docs env tab q T k := by
    intro b
    simp only [builtIndices]
    rw [if_pos (by omega)]
    simp
  refine ⟨?_, ?_, ?_, ?_⟩
  · intro d hdm _
    show d.terms.length < oi.size
    rw [hok.size]; exact le_maxCard hdm
  · intro b hb
    by_cases h0 : 0 ≤ b
    · refine ⟨h0, ?_⟩
      obtain ⟨n, rfl⟩ := Int.eq_ofNat_of_zero_le h0
      rw [hget] at hb
      show (n : Int) < (oi.tables.length : Nat)
      by_contra hlt
      have : oi.table n = none := by
        unfold OpenIndex.table
        rw [List.getElem?_eq_none (by omega)]; rfl
      rw [this] at hb; simp at hb
    · simp [builtIndices, h0] at hb
  · intro b hb
    rw [hget, Option.map_eq_none_iff] at hb
    exact (C24_search (κ := Unit) L LG (fun _ _ => ((), .ok)) sort hs _ (.inl rfl) hd hf hoi b).1 hb
  · intro b f hb env collect T hT k
    rw [hget] at hb
    obtain ⟨tab, htab, rfl⟩ := Option.map_eq_some_iff.1 hb
    exact (C24_search L LG collect sort hs _ (.inl rfl) hd hf hoi b).2 tab htab env q hq T hT k

theorem RealMetric.mono {oob : Int} {α : ℝ} {a n m : Nat} {M : Metric ℝ} {sim : Nat → Nat → Nat → ℝ} (h : m ≤ n)
    (hM : RealMetric oob α a n M sim) : RealMetric oob α a m M sim := by
  cases hM with
  | jaccard h1 => exact .jaccard h1
  | dice h1 => exact .dice h1
  | cosine h1 => exact .cosine h1
  | overlap h1 => exact .overlap (h.trans h1)

end Verif
