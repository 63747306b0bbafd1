import Verif.Props.Spellchecker
/-!
Concrete spell checkers: the hypotheses of C50–C52 and C65 are met, and the full properties are false.
-/
namespace Verif.Props
open Verif Spec

/-- Four words; word 0 has six n-grams, the others have one. -/
def spellDocs : List Doc := [⟨0, ["a", "b", "c", "d", "e", "f"]⟩, ⟨1, ["a"]⟩, ⟨2, ["b"]⟩, ⟨3, ["b"]⟩]

theorem spellDocs_good : GoodDocs spellDocs ∧ FirstNonempty spellDocs :=
  ⟨⟨by decide, by decide, by decide, by decide, by decide⟩, by
    intro d hd
    simp only [spellDocs, List.head?_cons, Option.some.injEq] at hd
    subst hd
    simp⟩

theorem spell_indexOf : ∃ (ρ : Roaring) (_ : ρ.Lawful) (G : Gob) (_ : G.Lawful) (oi : OpenIndex), IndexOf ρ G spellDocs oi := by
  obtain ⟨G, LG⟩ := gob_contract_satisfiable
  obtain ⟨ix, hix0⟩ : ∃ ix : Indices, ix = [none, some [("a", [1]), ("b", [2, 3])], none, none, none, none,
      some [("a", [0]), ("b", [0]), ("c", [0]), ("d", [0]), ("e", [0]), ("f", [0])]] := ⟨_, rfl⟩
  have hix : addDocuments (spellDocs.map fun d => (d.id, d.terms)) [] = .ok ix := by rw [hix0]; decide
  obtain ⟨h, hh⟩ : ∃ h, commitData toyRoaring (fun _ m => m) ix = .ok ([1, 2, 1, 0, 0, 0, 0, 0, 0], h) := by
    have hv : ∀ v, v ≤ 0x7F → encVUInt32 v = [UInt8.ofNat v] := fun v hv => by
      rw [encVUInt32]; simp [hv]
    have h1 := codecEncode_one toyRoaring
    have h2 : codecEncode toyRoaring [2, 3] = .ok ([2, 1], 2) := by
      simp [codecEncode, vbEncode, varIntEncode, varIntEncodeTotal, u32sub, hv 2, hv 1, skippingGapSize]
    rw [hix0]
    simp only [commitData, commitOrder, List.zipIdx_cons, List.zipIdx_nil, List.flatMap_cons, List.flatMap_nil,
      Option.getD_some, Option.getD_none, List.map_nil, List.nil_append, List.map_cons, List.cons_append,
      commitEntries, h1 0 (by decide), h1 1 (by decide), h2, bind, Except.bind, pure, Except.pure]
    exact ⟨_, rfl⟩
  obtain ⟨oi, h⟩ := indexOf_exists toyLawful LG (order := fun _ m => m) (fun _ _ => .refl _) spellDocs
    [[1, 2, 1, 0, 0, 0, 0, 0, 0]] [G.encode h] spellDocs_good.1 spellDocs_good.2
    ⟨ix, _, h, hix, hh, rfl, by simp⟩ (by decide)
  exact ⟨toyRoaring, toyLawful, G, LG, oi, h⟩

/-- The counts of the sentences "1 2" and "2 3" (words 1, 2, 3), with order 2. -/
def spellFiles : List (List (List Nat × Nat)) := [[([1], 1), ([2], 2), ([3], 1)], [([1, 2], 1), ([2, 3], 1)]]

theorem spellFiles_corpus : CorpusFiles spellFiles := by
  refine ⟨⟨?_, by decide, by decide, ?_, by decide⟩, by decide, ?_, by decide⟩
  · intro k F h
    match k, h with
    | 0, h => simp [spellFiles] at h; subst h; decide
    | 1, h => simp [spellFiles] at h; subst h; decide
    | k + 2, h => simp [spellFiles] at h
  · intro k F h e he
    match k, h with
    | 0, h =>
      simp [spellFiles] at h; subst h
      simp at he
      rcases he with rfl | rfl
      · exact ⟨([1], 1), by simp [spellFiles], rfl⟩
      · exact ⟨([2], 2), by simp [spellFiles], rfl⟩
    | k + 1, h => simp [spellFiles] at h
  · intro g
    by_contra hno
    obtain ⟨e, he, rfl⟩ := gramCount_mem (files := spellFiles) (g := g) (by omega)
    have hmem : e ∈ spellFiles.flatten := by
      rw [List.getD_eq_getElem?_getD] at he
      cases hF : spellFiles[e.1.length - 1]? with
      | none => rw [hF] at he; simp at he
      | some F =>
        rw [hF] at he
        exact List.mem_flatten.2 ⟨F, List.mem_of_getElem? hF, he⟩
    have : ∀ e ∈ spellFiles.flatten, gramCount spellFiles e.1 < 2 ^ 32 := by decide
    exact hno (this e hmem)

/-- The n-grams of the words: word "7" has two, word "8" seven, word "9" one, the others eight. -/
def spellGrams (w : Bytes) : List String :=
  if w = [7] then ["a", "b"] else if w = [8] then ["g", "h", "i", "j", "k", "l", "m"] else if w = [9] then ["b"]
  else ["g", "h", "i", "j", "k", "l", "m", "n"]

/-- A word is a byte; the tokenizer cuts the query into bytes. -/
def exampleChecker (ρ : Roaring) (oi : OpenIndex) (vs : List PackedArray) (dict : Nat → Bytes) : SpellChecker where
  ρ := ρ
  sort := fun l => l
  index := oi
  prefixGrams := spellGrams
  grams := spellGrams
  model := ⟨vs, 2, 0, 0⟩
  wordID := fun w => .ok (w.headD 0).toNat
  tokenize := fun q => q.map fun b => [b]
  dict := dict

/-- The id of a word. -/
def exampleID (w : Bytes) : Nat := (w.headD 0).toNat

/-- There is such a spell checker, for every dictionary. -/
theorem exampleChecker_ok : ∃ mk : (Nat → Bytes) → SpellChecker, ∀ dict, (∀ q, SpellIndex (mk dict) spellDocs q) ∧
    SpellModel (mk dict) spellFiles exampleID 0 ∧ (mk dict).prefixGrams = spellGrams ∧ (mk dict).grams = spellGrams ∧
    (mk dict).tokenize = (fun q => q.map fun b => [b]) ∧ (mk dict).dict = dict ∧
    (∀ q, GoodSimilarity (mk dict) q (1 / 2)) ∧ ∀ q, GoodSimilarity (mk dict) q 1 := by
  obtain ⟨ρ, L, G, LG, oi, hoi⟩ := spell_indexOf
  obtain ⟨vs, h1, _⟩ := C45_recent_words_partial spellFiles_corpus (by decide)
  have hg : ∀ w, (spellGrams w).Nodup ∧ (spellGrams w).length ≤ 8 := by
    intro w
    unfold spellGrams
    split
    · decide
    · split
      · decide
      · split <;> decide
  refine ⟨exampleChecker ρ oi vs, fun dict => ⟨fun _ => ⟨⟨L⟩, ⟨G, LG, hoi⟩, spellDocs_good.1, spellDocs_good.2, fun r => .refl _, ?_, ?_, by decide⟩,
    ⟨spellFiles_corpus, by decide, ⟨vs, 0, h1, rfl⟩, by decide, fun w => ⟨rfl, ?_⟩⟩, rfl, rfl, rfl, rfl, fun _ => ⟨by norm_num, by norm_num, ?_⟩,
    fun _ => ⟨by norm_num, by norm_num, ?_⟩⟩⟩
  · intro w _
    have := hg w
    exact ⟨this.1, by have := this.2; show (spellGrams w).length ≤ _; omega⟩
  · intro w _
    have := hg w
    exact ⟨this.1, by have := this.2; show (spellGrams w).length ≤ _; omega⟩
  · unfold exampleID
    have := (w.headD 0).toNat_lt
    omega
  · intro w _
    have : ((spellGrams w).length : ℝ) ≤ 8 := by exact_mod_cast (hg w).2
    show ((spellGrams w).length : ℝ) / _ < _
    norm_num
    linarith
  · intro w _
    have : ((spellGrams w).length : ℝ) ≤ 8 := by exact_mod_cast (hg w).2
    show ((spellGrams w).length : ℝ) / _ < _
    norm_num
    have := (hg w).2
    omega

open Classical in
/-- The two words most similar to a word with the n-grams "a" and "b" are the words 1 and 2. -/
theorem spell_similar : similarWords spellDocs ["a", "b"] (1 / 2) 2 = [1, 2] := by
  have s0 : shared ["a", "b"] ⟨0, ["a", "b", "c", "d", "e", "f"]⟩ = 2 := by decide
  have s1 : shared ["a", "b"] ⟨1, ["a"]⟩ = 1 := by decide
  have s2 : shared ["a", "b"] ⟨2, ["b"]⟩ = 1 := by decide
  have s3 : shared ["a", "b"] ⟨3, ["b"]⟩ = 1 := by decide
  have q2 : Real.sqrt 2 * Real.sqrt 2 = 2 := Real.mul_self_sqrt (by norm_num)
  have p2 : 0 < Real.sqrt 2 := Real.sqrt_pos.2 (by norm_num)
  have q12 : Real.sqrt 12 * Real.sqrt 12 = 12 := Real.mul_self_sqrt (by norm_num)
  have p12 : 0 < Real.sqrt 12 := Real.sqrt_pos.2 (by norm_num)
  have c0 : cosineSim 2 6 2 = 2 / Real.sqrt 12 := by unfold cosineSim; norm_num
  have c1 : cosineSim 2 1 1 = 1 / Real.sqrt 2 := by unfold cosineSim; norm_num
  have a0 : (1 / 2 : ℝ) ≤ 2 / Real.sqrt 12 := by
    rw [le_div_iff₀ p12]; nlinarith
  have a1 : (1 / 2 : ℝ) ≤ 1 / Real.sqrt 2 := by
    rw [le_div_iff₀ p2]; nlinarith
  have a2 : 2 / Real.sqrt 12 ≤ 1 / Real.sqrt 2 := by
    rw [div_le_div_iff₀ p12 p2]
    have h : (2 * Real.sqrt 2) ^ 2 ≤ (Real.sqrt 12) ^ 2 := by nlinarith
    have := abs_le_of_sq_le_sq' h p12.le
    linarith [this.2]
  have a3 : 2 / Real.sqrt 12 < 1 / Real.sqrt 2 := by
    rcases lt_or_eq_of_le a2 with h | h
    · exact h
    · exfalso
      rw [div_eq_div_iff p12.ne' p2.ne'] at h
      have h2 : (2 * Real.sqrt 2) * (2 * Real.sqrt 2) = (1 * Real.sqrt 12) * (1 * Real.sqrt 12) := by rw [h]
      nlinarith
  have hans : suggestAnswer cosineSim spellDocs ["a", "b"] (1 / 2) 2 = [⟨1, 1 / Real.sqrt 2⟩, ⟨2, 1 / Real.sqrt 2⟩] := by
    have e : ((spellDocs.filter fun d => decide ((1 / 2 : ℝ) ≤ cosineSim ["a", "b"].length d.terms.length (shared ["a", "b"] d))).map
        fun d => (⟨d.id, cosineSim ["a", "b"].length d.terms.length (shared ["a", "b"] d)⟩ : Candidate ℝ))
        = [⟨0, 2 / Real.sqrt 12⟩, ⟨1, 1 / Real.sqrt 2⟩, ⟨2, 1 / Real.sqrt 2⟩, ⟨3, 1 / Real.sqrt 2⟩] := by
      simp only [spellDocs, List.filter_cons, List.filter_nil, List.length_cons, List.length_nil, Nat.reduceAdd, s0, s1, s2, s3,
        c0, c1, decide_eq_true a0, decide_eq_true a1, if_true, List.map_cons, List.map_nil]
    unfold suggestAnswer
    rw [e]
    symm
    refine best_unique (rest := [⟨0, 2 / Real.sqrt 12⟩, ⟨3, 1 / Real.sqrt 2⟩]) ?_ ?_ ?_ rfl
    · simp [BestFirst, Candidate.betterEq]
    · exact (List.Perm.cons _ (List.Perm.swap _ _ _)).trans (List.Perm.swap _ _ _)
    · intro r hr x hx
      simp only [List.mem_cons, List.not_mem_nil, or_false] at hr hx
      rcases hr with rfl | rfl <;> rcases hx with rfl | rfl <;> simp [Candidate.betterEq] <;> simpa using a3
  unfold similarWords
  rw [hans]; rfl

theorem spell_answers {mk : (Nat → Bytes) → SpellChecker} {dict : Nat → Bytes} (hi : ∀ q, SpellIndex (mk dict) spellDocs q)
    (hm : SpellModel (mk dict) spellFiles exampleID 0) (hg : (mk dict).grams = spellGrams)
    (ht : (mk dict).tokenize = fun q => q.map fun b => [b]) (hα : ∀ q, GoodSimilarity (mk dict) q (1 / 2)) (val : LMScore → ℝ)
    (query : Bytes) {K : Nat} (hK : 0 < K) : ∃ ws, PredictReturns (realOps 0) val (mk dict) query K (1 / 2) (.ok ws) := by
  refine (C65_answers_partial (hi _) (hα _) hm hK ?_).2.2.2.1
  intro seq word _
  refine ⟨⟨0, ["a", "b", "c", "d", "e", "f"]⟩, by simp [spellDocs], ?_⟩
  rw [hg]
  have : (spellGrams word).length ≤ 8 := by
    unfold spellGrams
    split
    · decide
    · split
      · decide
      · split <;> decide
  have : ((spellGrams word).length : ℝ) ≤ 8 := by exact_mod_cast this
  norm_num
  linarith

theorem spell_three_words {mk : (Nat → Bytes) → SpellChecker} {dict : Nat → Bytes} (hi : ∀ q, SpellIndex (mk dict) spellDocs q)
    (hpg : (mk dict).prefixGrams = spellGrams) (hg : (mk dict).grams = spellGrams) (ht : (mk dict).tokenize = fun q => q.map fun b => [b]) (hd : (mk dict).dict = dict)
    (hα : ∀ q, GoodSimilarity (mk dict) q (1 / 2)) {val : LMScore → ℝ} {ws : List Bytes}
    (hr : PredictReturns (realOps 0) val (mk dict) [7] 2 (1 / 2) (.ok ws)) : ws = [dict 0, dict 1, dict 2] := by
  have hpw : (mk dict).prefixGrams [7] = ["a", "b"] := by rw [hpg]; decide
  have hgw : (mk dict).grams [7] = ["a", "b"] := by rw [hg]; decide
  obtain ⟨h1, h2⟩ := C52_single_word (K := 2) (hi _) (hα _) (by decide) (word := [7]) (by rw [ht]; rfl) hr
  rw [hgw, hpw] at h1
  rw [hpw] at h2
  have e : containing spellDocs ["a", "b"] = [0] := by decide
  rw [e] at h2
  rw [h1, hd]
  unfold predictWords
  rw [h2, spell_similar]
  rfl

/-- **C50** is false: a spell checker, a query and `topK = 2`, for which `Predict` always returns three words. -/
theorem C50_wrong : ∃ (sc : SpellChecker) (docs : List Doc), SpellIndex sc docs [7] ∧ SpellModel sc spellFiles exampleID 0 ∧
    GoodSimilarity sc [7] (1 / 2) ∧ ∀ val, (∃ ws, PredictReturns (realOps 0) val sc [7] 2 (1 / 2) (.ok ws)) ∧
      ∀ ws, PredictReturns (realOps 0) val sc [7] 2 (1 / 2) (.ok ws) → ws = [[0], [1], [2]] := by
  obtain ⟨mk, h⟩ := exampleChecker_ok
  obtain ⟨hi, hm, hpg, hg, ht, hd, hα, _⟩ := h fun i => [UInt8.ofNat i]
  refine ⟨_, _, hi _, hm, hα _, fun val => ⟨spell_answers hi hm hg ht hα val [7] (by decide), fun ws hr => ?_⟩⟩
  rw [spell_three_words hi hpg hg ht hd hα hr]
  decide

/-- **C51** needs a dictionary without duplicates: if the dictionary has the same word at the positions 0, 1 and 2, it is
returned three times. -/
theorem C51_duplicate_entries : ∃ (sc : SpellChecker) (docs : List Doc), SpellIndex sc docs [7] ∧ SpellModel sc spellFiles exampleID 0 ∧
    GoodSimilarity sc [7] (1 / 2) ∧ ∀ val, (∃ ws, PredictReturns (realOps 0) val sc [7] 2 (1 / 2) (.ok ws)) ∧
      ∀ ws, PredictReturns (realOps 0) val sc [7] 2 (1 / 2) (.ok ws) → ws = [[42], [42], [42]] := by
  obtain ⟨mk, h⟩ := exampleChecker_ok
  obtain ⟨hi, hm, hpg, hg, ht, hd, hα, _⟩ := h fun _ => [42]
  refine ⟨_, _, hi _, hm, hα _, fun val => ⟨spell_answers hi hm hg ht hα val [7] (by decide), fun ws hr => ?_⟩⟩
  rw [spell_three_words hi hpg hg ht hd hα hr]

theorem spell_best_one {a b c : Nat} {score : Nat → ℝ} (h1 : score a < score b) (h2 : score c < score b) (l : List Nat)
    (hl : l.Perm [b, a, c]) : (best 1 (l.map fun id => (⟨id, score id⟩ : Candidate ℝ))).map Candidate.key = [b] := by
  have : best 1 (l.map fun id => (⟨id, score id⟩ : Candidate ℝ)) = [⟨b, score b⟩] := by
    symm
    refine best_unique (rest := [⟨a, score a⟩, ⟨c, score c⟩]) ?_ ?_ ?_ ?_
    · simp [BestFirst]
    · exact (hl.map fun id => (⟨id, score id⟩ : Candidate ℝ)).symm
    · intro r hr x hx
      simp only [List.mem_cons, List.not_mem_nil, or_false] at hr hx
      subst hr
      rcases hx with rfl | rfl <;> simp [Candidate.betterEq, h1, h2]
    · have := hl.length_eq
      simp at this
      simp [this]
  rw [this]; rfl

/-- **C52** is false: with the model of order 2 of the sentences "1 2" and "2 3", after the words "1 2" the best completion
of "9" (of the words 0, 2 and 3) is 3, as only 3 ever followed 2. `Predict` with `topK = 1` returns 2, which followed 1. -/
theorem C52_wrong : ∃ (sc : SpellChecker) (docs : List Doc), SpellIndex sc docs [1, 2, 9] ∧ SpellModel sc spellFiles exampleID 0 ∧
    GoodSimilarity sc [1, 2, 9] (1 / 2) ∧ ∀ val : LMScore → ℝ, val .unknown < val (.ratio 0 1 2) → val .unknown < val (.ratio 0 1 1) →
      (∃ ws, PredictReturns (realOps 0) val sc [1, 2, 9] 1 (1 / 2) (.ok ws)) ∧
      ∀ ws, PredictReturns (realOps 0) val sc [1, 2, 9] 1 (1 / 2) (.ok ws) → ws = [[2]] ∧
        let score := fun w => val (followScore spellFiles (recentWords 2 0 [1, 2]) w)
        ¬ ∃ ids, BestPredictions sc.dict score (predictWords docs (sc.prefixGrams [9]) (sc.grams [9]) score (1 / 2) 1) ws ids := by
  obtain ⟨mk, h⟩ := exampleChecker_ok
  obtain ⟨hi, hm, hpg, hg, ht, hd, hα, _⟩ := h fun i => [UInt8.ofNat i]
  refine ⟨_, _, hi _, hm, hα _, fun val hv1 hv2 => ⟨spell_answers hi hm hg ht hα val _ (by decide), fun ws hr => ?_⟩⟩
  have hpgw : (mk fun i => [UInt8.ofNat i]).prefixGrams [9] = ["b"] := by rw [hpg]; decide
  have hgw : (mk fun i => [UInt8.ofNat i]).grams [9] = ["b"] := by rw [hg]; decide
  have e : containing spellDocs ["b"] = [0, 2, 3] := by decide
  obtain ⟨ids, hb, hlen⟩ := C52_wrong_context (K := 1) (hi _) (hα _) hm (by decide) (seq := [[1], [2]]) (word := [9])
    (by rw [ht]; rfl) rfl hr
  have hctx : ([[1], [2]].map exampleID).dropLast = [1] := by decide
  simp only [hctx, hgw, hpgw] at hb hlen
  have f0 : followScore spellFiles [1] 0 = .unknown := by decide
  have f2 : followScore spellFiles [1] 2 = .ratio 0 1 1 := by decide
  have f3 : followScore spellFiles [1] 3 = .unknown := by decide
  have hpw : predictWords spellDocs ["b"] ["b"] (fun w => val (followScore spellFiles [1] w)) (1 / 2) 1 = [2] := by
    have hc : completions spellDocs ["b"] (fun w => val (followScore spellFiles [1] w)) 1 = [2] := by
      unfold completions
      rw [if_neg (by simp), e]
      exact spell_best_one (a := 0) (b := 2) (c := 3) (by rw [f0, f2]; exact hv2) (by rw [f3, f2]; exact hv2) [0, 2, 3]
        (List.Perm.swap _ _ _)
    unfold predictWords
    rw [hc]; rfl
  rw [hpw] at hb hlen
  have hws : ws = [[2]] := by
    rw [hb.words, hd]
    have h1 : ids.length = 1 := by simpa using hlen
    obtain ⟨x, rfl⟩ := List.length_eq_one_iff.1 h1
    have := hb.sub (List.mem_singleton_self x)
    simp only [List.mem_singleton] at this
    subst this; decide
  refine ⟨hws, ?_⟩
  intro score
  have hrw : recentWords 2 0 [1, 2] = [2] := by decide
  have g0 : followScore spellFiles [2] 0 = .unknown := by decide
  have g2 : followScore spellFiles [2] 2 = .unknown := by decide
  have g3 : followScore spellFiles [2] 3 = .ratio 0 1 2 := by decide
  have hpw' : predictWords spellDocs ["b"] ["b"] score (1 / 2) 1 = [3] := by
    have hc : completions spellDocs ["b"] score 1 = [3] := by
      unfold completions
      rw [if_neg (by simp), e]
      refine spell_best_one (a := 0) (b := 3) (c := 2) ?_ ?_ [0, 2, 3] ?_
      · show val (followScore spellFiles (recentWords 2 0 [1, 2]) 0) < val (followScore spellFiles (recentWords 2 0 [1, 2]) 3)
        rw [hrw, g0, g3]; exact hv1
      · show val (followScore spellFiles (recentWords 2 0 [1, 2]) 2) < val (followScore spellFiles (recentWords 2 0 [1, 2]) 3)
        rw [hrw, g2, g3]; exact hv1
      · decide
    unfold predictWords
    rw [hc]; rfl
  rintro ⟨ids', hb'⟩
  rw [hgw, hpgw, hpw'] at hb'
  have h1 := hb'.words
  rw [hws, hd] at h1
  cases ids' with
  | nil => simp at h1
  | cons x xs =>
    have := hb'.sub (List.mem_cons_self)
    simp only [List.mem_singleton] at this
    subst this
    simp at h1

/-- **C65** is false: `topK = 0` and two long last words. -/
theorem C65_wrong : ∃ (sc : SpellChecker) (docs : List Doc), (∀ q, SpellIndex sc docs q) ∧ SpellModel sc spellFiles exampleID 0 ∧
    (∀ q, GoodSimilarity sc q 1) ∧ ∀ val : LMScore → ℝ,
      (PredictPanics (realOps 0) val sc [9] 0 1 ∧ ∀ r, ¬ PredictReturns (realOps 0) val sc [9] 0 1 r) ∧
      PredictBlocks (realOps 0) val sc [8] (5 : Nat) 1 ∧ PredictPanics (realOps 0) val sc [10] (5 : Nat) 1 := by
  obtain ⟨mk, h⟩ := exampleChecker_ok
  obtain ⟨hi, hm, hpg, hg, ht, hd, _, hα⟩ := h fun i => [UInt8.ofNat i]
  have hg8 : (mk fun i => [UInt8.ofNat i]).grams [8] = ["g", "h", "i", "j", "k", "l", "m"] := by rw [hg]; decide
  have hg9 : (mk fun i => [UInt8.ofNat i]).prefixGrams [9] = ["b"] := by rw [hpg]; decide
  have hg10 : (mk fun i => [UInt8.ofNat i]).grams [10] = ["g", "h", "i", "j", "k", "l", "m", "n"] := by rw [hg]; decide
  refine ⟨_, _, hi, hm, hα, fun val => ⟨?_, ?_, ?_⟩⟩
  · exact C65_zero_panics (hi _) hm (seq := []) (word := [9]) (by rw [ht]; rfl) (by rw [hg9]; simp) (by rw [hg9]; decide)
  · refine C65_long_word_blocks (hi _) (hα _) hm (by decide) (seq := []) (word := [8]) (m := 6) (by rw [ht]; rfl) (by rw [hpg]; decide) (by decide)
      ⟨⟨0, ["a", "b", "c", "d", "e", "f"]⟩, by simp [spellDocs], rfl⟩ ?_
    rw [hg8]
    have : (1 * 1 * ((["g", "h", "i", "j", "k", "l", "m"].length : Nat) : ℝ)) = ((7 : Int) : ℝ) := by norm_num
    rw [this, Int.ceil_intCast]; rfl
  · refine C65_long_word_panics (hi _) (hα _) hm (by decide) (seq := []) (word := [10]) (by rw [ht]; rfl) (by rw [hpg]; decide) (by simp [spellDocs]) ?_
    rw [hg10]
    intro d hd
    simp only [spellDocs, List.mem_cons, List.not_mem_nil, or_false] at hd
    rcases hd with rfl | rfl | rfl | rfl <;> norm_num

/-- Non-vacuity of C50_at_most_one_more_partial, C51_no_duplicates and C52_by_score_partial: for the query "2 9" (one word
before the last one, order 2) some list is returned. -/
example : ∃ (sc : SpellChecker) (docs : List Doc), SpellIndex sc docs [2, 9] ∧ SpellModel sc spellFiles exampleID 0 ∧
    GoodSimilarity sc [2, 9] (1 / 2) ∧ (∀ a ∈ docs, ∀ b ∈ docs, sc.dict a.id = sc.dict b.id → a.id = b.id) ∧
    (∃ seq word, sc.tokenize [2, 9] = seq ++ [word] ∧ seq ≠ [] ∧ seq.length ≠ spellFiles.length) ∧
    ∀ val, ∃ ws, PredictReturns (realOps 0) val sc [2, 9] (3 : Nat) (1 / 2) (.ok ws) := by
  obtain ⟨mk, h⟩ := exampleChecker_ok
  obtain ⟨hi, hm, hpg, hg, ht, hd, hα, _⟩ := h fun i => [UInt8.ofNat i]
  refine ⟨_, _, hi _, hm, hα _, ?_, ⟨[[2]], [9], by rw [ht]; rfl, by simp, by decide⟩, fun val => spell_answers hi hm hg ht hα val _ (by decide)⟩
  rw [hd]; decide

end Verif.Props
