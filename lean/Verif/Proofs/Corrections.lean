import Verif.Props.WordSearch
import Verif.Props.Spellchecker
import Verif.Spec.Corrections
/-! Lemmas for C71: the answer of `Predict` in terms of the words of the dictionary. -/
namespace Verif.Correct
open Verif Spec Verif.Props Verif.WordSearch

/-- A spell checker over the dictionary `words`, described by `c`, and a query. -/
structure WordChecker (sc : SpellChecker) (c : WordConf) (words : List (List Char)) (query : Bytes) : Prop where
  index : SpellIndex sc (wordDocs c words) query
  small : ∀ w ∈ words, (c.grams (c.wordText w)).length ≤ 32767
  nodup : words.Nodup
  dict : ∀ (k : Nat) w, words[k]? = some w → sc.dict k = utf8 w
  grams : ∀ w, c.Faithful (c.wordText w) → sc.grams (utf8 w) = (c.grams (c.wordText w)).map term
  prefixGrams : ∀ w, c.Faithful (c.prefixText w) → sc.prefixGrams (utf8 w) = (c.grams (c.prefixText w)).map term

variable {sc : SpellChecker} {c : WordConf} {words : List (List Char)} {query : Bytes}

theorem matches_iff (last : List Char) (k : Nat) (w : List Char) :
    (((c.grams (c.prefixText last)).map term).all fun t => decide (t ∈ (wordDoc c k w).terms)) = c.matchesPrefix last w := by
  unfold WordConf.matchesPrefix
  rw [List.all_map]
  congr 1
  funext x
  rw [Bool.eq_iff_iff]
  show decide (term x ∈ (c.grams (c.wordText w)).map term) = true ↔ decide (x ∈ c.grams (c.wordText w)) = true
  rw [decide_eq_true_eq, decide_eq_true_eq]
  constructor
  · intro hx
    obtain ⟨y, hy, e⟩ := List.mem_map.1 hx
    rwa [← term_inj e]
  · exact fun hx => List.mem_map_of_mem hx

theorem mem_containing {last : List Char} {k : Nat} :
    k ∈ containing (wordDocs c words) ((c.grams (c.prefixText last)).map term) ↔
      ∃ w, words[k]? = some w ∧ c.matchesPrefix last w = true := by
  unfold containing
  rw [List.mem_map]
  constructor
  · rintro ⟨x, hx, rfl⟩
    obtain ⟨hx, hm⟩ := List.mem_filter.1 hx
    obtain ⟨k, w, h, rfl⟩ := mem_wordDocs.1 hx
    rw [matches_iff] at hm
    exact ⟨w, h, hm⟩
  · rintro ⟨w, h, hm⟩
    refine ⟨wordDoc c k w, List.mem_filter.2 ⟨mem_wordDocs.2 ⟨k, w, h, rfl⟩, ?_⟩, rfl⟩
    rw [matches_iff]; exact hm

theorem ids_nodup (c : WordConf) (words : List (List Char)) : ((wordDocs c words).map Doc.id).Nodup := by
  have : (wordDocs c words).map Doc.id = List.range words.length := by
    apply List.ext_getElem?
    intro i
    by_cases h : i < words.length <;> simp [wordDocs, wordDoc, h, Nat.le_of_not_lt]
  rw [this]; exact List.nodup_range

/-- The completions, by position. -/
structure Completed (c : WordConf) (words : List (List Char)) (last : List Char) (score : Nat → ℚ) (K : Nat) (comp : List Nat) :
    Prop where
  nodup : comp.Nodup
  le : comp.length ≤ K
  sound : ∀ k ∈ comp, ∃ w, words[k]? = some w ∧ c.completes last w
  complete : ∀ (k : Nat) w, words[k]? = some w → c.completes last w →
    k ∈ comp ∨ (comp.length = K ∧ ∀ j ∈ comp, score k < score j ∨ (score k = score j ∧ j ≤ k))
  sorted : comp.Pairwise fun j k => score k < score j ∨ (score k = score j ∧ j ≤ k)

theorem completed (last : List Char) (score : Nat → ℚ) (K : Nat) :
    Completed c words last score K (completions (wordDocs c words) ((c.grams (c.prefixText last)).map term) score K) := by
  unfold completions
  by_cases h0 : c.grams (c.prefixText last) = []
  · rw [if_pos (by simp [h0])]
    exact ⟨by simp, by simp, by simp, fun k w _ hc => absurd h0 hc.1, .nil⟩
  rw [if_neg (by simpa using h0)]
  let l := (containing (wordDocs c words) ((c.grams (c.prefixText last)).map term)).map fun id => (⟨id, score id⟩ : Candidate ℚ)
  have hl : ∀ x ∈ l, x.score = score x.key := by
    intro x hx; obtain ⟨i, _, rfl⟩ := List.mem_map.1 hx; rfl
  have hkeys : (l.map Candidate.key).Nodup := by
    have : l.map Candidate.key = containing (wordDocs c words) ((c.grams (c.prefixText last)).map term) := by
      simp only [l, List.map_map]
      conv_rhs => rw [← List.map_id (containing (wordDocs c words) ((c.grams (c.prefixText last)).map term))]
      rfl
    rw [this]
    exact (ids_nodup c words).sublist (List.Sublist.map _ List.filter_sublist)
  have hbe : ∀ x ∈ l, ∀ y ∈ l, x.betterEq y = true → score y.key < score x.key ∨ (score y.key = score x.key ∧ x.key ≤ y.key) := by
    intro x hx y hy h
    unfold Candidate.betterEq at h
    rw [hl x hx, hl y hy] at h
    simp only [Bool.or_eq_true, decide_eq_true_eq, Bool.and_eq_true] at h
    rcases h with h | ⟨h1, h2⟩
    · exact .inl h
    · exact .inr ⟨h1.symm, h2⟩
  refine ⟨best_keys_nodup hkeys, ?_, ?_, ?_, ?_⟩
  · rw [List.length_map, best_length]; exact Nat.min_le_left _ _
  · intro k hk
    obtain ⟨x, hx, rfl⟩ := List.mem_map.1 hk
    obtain ⟨i, hi, rfl⟩ := List.mem_map.1 (best_key_mem hx)
    obtain ⟨w, h1, h2⟩ := mem_containing.1 hi
    exact ⟨w, h1, h0, h2⟩
  · intro k w hk hc
    obtain ⟨rest, hp, hb⟩ := best_split K l
    have hm : (⟨k, score k⟩ : Candidate ℚ) ∈ best K l ++ rest :=
      hp.mem_iff.2 (List.mem_map.2 ⟨k, mem_containing.2 ⟨w, hk, hc.2⟩, rfl⟩)
    rcases List.mem_append.1 hm with h | h
    · exact .inl (List.mem_map.2 ⟨_, h, rfl⟩)
    · refine .inr ⟨?_, ?_⟩
      · have h1 := hp.length_eq
        have h2 := best_length K l
        have h3 : 0 < rest.length := List.length_pos_of_mem h
        simp only [List.length_append] at h1
        rw [List.length_map]
        show (best K l).length = K
        omega
      · intro j hj
        obtain ⟨x, hx, rfl⟩ := List.mem_map.1 hj
        exact hbe x (best_key_mem hx) _ (hp.subset (List.mem_append_right _ h)) (hb x hx _ h)
  · rw [List.pairwise_map]
    refine (best_bestFirst K l).imp_of_mem ?_
    intro a b ha hb h
    exact hbe a (best_key_mem ha) b (best_key_mem hb) h

/-- The similar words, by position. -/
structure Resembling (c : WordConf) (words : List (List Char)) (last : List Char) (α : ℝ) (K : Nat) (sims : List Nat) : Prop where
  nodup : sims.Nodup
  le : sims.length ≤ K
  sound : ∀ k ∈ sims, ∃ w, words[k]? = some w ∧ α * (1 - 1 / 2 ^ 48) ≤ c.wordSim cosineSim last w
  sorted : sims.Pairwise fun i j => ∀ v w, words[i]? = some v → words[j]? = some w →
    c.wordSim cosineSim last w ≤ c.wordSim cosineSim last v
  complete : ∀ (k : Nat) w, words[k]? = some w → α * (1 + 1 / 2 ^ 48) ≤ c.wordSim cosineSim last w →
    k ∈ sims ∨ (sims.length = K ∧ ∀ j ∈ sims, ∀ v, words[j]? = some v → c.wordSim cosineSim last w ≤ c.wordSim cosineSim last v)

/-- The fuzzy search of the spell checker. -/
theorem resembling (hw : WordChecker sc c words query) {last : List Char} (hlw : LastWord sc query (utf8 last))
    (hf : c.Faithful (c.wordText last)) {oob : Int} {α : ℚ} (h0 : 1 / 2 ^ 20 ≤ α) (h1 : α ≤ 1) {K : Nat} (hK : 1 ≤ K)
    {r : Except Err (List (Candidate ℚ))}
    (hr : SuggestReturns (suggestCall (f64Ops oob) (cosineMetric (f64Ops oob)) sc.ρ sc.sort sc.index (sc.grams (utf8 last)) α K) r) :
    ∃ fs, r = .ok fs ∧ Resembling c words last α K (fs.map Candidate.key) := by
  obtain ⟨G, LG, hoi⟩ := hw.index.index
  obtain ⟨L⟩ := hw.index.lawful
  have hg := hw.index.grams _ hlw
  rw [hw.grams last hf] at hr hg
  have hsim : ∀ (k : Nat) (w : List Char), cosineSim ((c.grams (c.wordText last)).map term).length (wordDoc c k w).terms.length
      (shared ((c.grams (c.wordText last)).map term) (wordDoc c k w)) = c.wordSim cosineSim last w := by
    intro k w
    rw [shared_words]
    simp [wordDoc, WordConf.wordSim]
  obtain ⟨fs, ds, rfl, r1, r2, r3, r4, r5, r6⟩ := C66_float_suggest L LG hw.index.good hw.index.first hoi hw.index.sort
    hg.2 hg.1 h0 h1
    (fun x hx => by
      obtain ⟨k, w, h, rfl⟩ := mem_wordDocs.1 hx
      simpa [wordDoc] using hw.small w (List.mem_of_getElem? h)) (.cosine) hK hr
  have hkeys : fs.map Candidate.key = ds.map Doc.id := by
    clear r2 r3 r4 r5 r6 hr
    induction r1 with
    | nil => rfl
    | cons h _ ih => rw [List.map_cons, List.map_cons, h.1, ih]
  have hds : ∀ x ∈ ds, ∃ w, words[x.id]? = some w ∧ x = wordDoc c x.id w := by
    intro x hx
    obtain ⟨k, w, h, rfl⟩ := mem_wordDocs.1 (r5 x hx).1
    exact ⟨w, h, rfl⟩
  have hdsim : ∀ x ∈ ds, ∀ w, words[x.id]? = some w →
      cosineSim ((c.grams (c.wordText last)).map term).length x.terms.length
        (shared ((c.grams (c.wordText last)).map term) x) = c.wordSim cosineSim last w := by
    intro x hx w hw
    obtain ⟨w', h, e⟩ := hds x hx
    rw [hw] at h
    cases h
    rw [e]
    exact hsim x.id w
  refine ⟨fs, rfl, ?_, ?_, ?_, ?_, ?_⟩ <;> rw [hkeys]
  · refine r2.map_on ?_
    intro x hx y hy e
    obtain ⟨v, hv, ex⟩ := hds x hx
    obtain ⟨w, hw, ey⟩ := hds y hy
    rw [e] at hv
    rw [hv] at hw
    cases hw
    rw [ex, ey, e]
  · simpa using r3
  · intro k hk
    obtain ⟨x, hx, rfl⟩ := List.mem_map.1 hk
    obtain ⟨w, hw, -⟩ := hds x hx
    exact ⟨w, hw, by rw [← hdsim x hx w hw]; exact (r5 x hx).2⟩
  · rw [List.pairwise_map]
    refine List.Pairwise.imp_of_mem ?_ r4
    intro x y hx hy hxy v w hv hw
    rw [← hdsim x hx v hv, ← hdsim y hy w hw]
    exact hxy
  · intro k w hw hle
    rcases r6 (wordDoc c k w) (mem_wordDocs.2 ⟨k, w, hw, rfl⟩) (by simp only [hsim]; exact hle) with h | ⟨h2, h3⟩
    · exact .inl (List.mem_map.2 ⟨_, h, rfl⟩)
    · refine .inr ⟨by simpa using h2, ?_⟩
      intro j hj v hv
      obtain ⟨x, hx, rfl⟩ := List.mem_map.1 hj
      have := h3 x hx
      simp only [hsim] at this
      rw [hdsim x hx v hv] at this
      exact this

/-- The answer of `Predict`, by position. -/
theorem predict_positions (hw : WordChecker sc c words query) {seq : List Bytes} {last : List Char}
    (ht : sc.tokenize query = seq ++ [utf8 last]) (hf : c.Faithful (c.wordText last)) (hfp : c.Faithful (c.prefixText last))
    {val : LMScore → ℚ} {next : Option ScorerNext} {score : Nat → ℚ} (hn : spellScorer sc seq = .ok next)
    (hsc : ∀ k < words.length, lmScore val next k = .ok (score k)) {oob : Int} {α : ℚ} (h0 : 1 / 2 ^ 20 ≤ α) (h1 : α ≤ 1)
    {K : Nat} (hK : 1 ≤ K) {r : Except Err (List Bytes)} (hr : PredictReturns (f64Ops oob) val sc query K α r) :
    ∃ comp considered, r = .ok (((byScore score considered).take (K + 1)).map sc.dict) ∧ Completed c words last score K comp ∧
      ((comp.length = K ∧ considered = comp) ∨
       (comp.length < K ∧ ∃ sims, Resembling c words last α K sims ∧ considered = comp ++ sims.filter (· ∉ comp))) := by
  have hdocs : ∀ x ∈ wordDocs c words, lmScore val next x.id = .ok (score x.id) := by
    intro x hx
    obtain ⟨k, w, h, rfl⟩ := mem_wordDocs.1 hx
    exact hsc k (List.getElem?_eq_some_iff.1 h).1
  obtain ⟨considered, e, hcase⟩ := predict_returns hw.index hdocs hK ht hn
    (P := fun fs => Resembling c words last α K (fs.map Candidate.key))
    (by
      intro fs h
      refine ⟨h.nodup, fun x hx => ?_⟩
      obtain ⟨w, hk, _⟩ := h.sound x.key (List.mem_map_of_mem hx)
      exact List.mem_map.2 ⟨_, mem_wordDocs.2 ⟨_, w, hk, rfl⟩, rfl⟩)
    (fun h => resembling hw ⟨_, ht⟩ hf h0 h1 hK h) hr
  have hp := hw.prefixGrams last hfp
  rw [hp] at hcase
  have hcomp := completed (c := c) (words := words) last score K
  refine ⟨_, considered, e, hcomp, ?_⟩
  rcases hcase with ⟨a, b⟩ | ⟨a, fs, b, d⟩
  · exact .inl ⟨Nat.le_antisymm hcomp.le a, b⟩
  · exact .inr ⟨a, _, b, d⟩

/-! ### from positions to words -/

theorem Completed.lt {score : Nat → ℚ} {last : List Char} {K : Nat} {comp : List Nat} (h : Completed c words last score K comp)
    {k : Nat} (hk : k ∈ comp) : k < words.length := by
  obtain ⟨w, hw, _⟩ := h.sound k hk
  exact (List.getElem?_eq_some_iff.1 hw).1

theorem Resembling.lt {last : List Char} {α : ℝ} {K : Nat} {sims : List Nat} (h : Resembling c words last α K sims)
    {k : Nat} (hk : k ∈ sims) : k < words.length := by
  obtain ⟨w, hw, _⟩ := h.sound k hk
  exact (List.getElem?_eq_some_iff.1 hw).1

/-- The word at a position. -/
def wordAt (words : List (List Char)) (k : Nat) : List Char := words.getD k []

theorem wordAt_get {k : Nat} (h : k < words.length) : words[k]? = some (wordAt words k) := by
  simp [wordAt, h]

theorem wordAt_mem {k : Nat} (h : k < words.length) : wordAt words k ∈ words := List.mem_of_getElem? (wordAt_get h)

theorem wordAt_of {k : Nat} {w : List Char} (h : words[k]? = some w) : wordAt words k = w := by simp [wordAt, h]

theorem wordAt_nodup (hn : words.Nodup) {ids : List Nat} (h : ids.Nodup) (hlt : ∀ k ∈ ids, k < words.length) :
    (ids.map (wordAt words)).Nodup := by
  refine h.map_on ?_
  intro x hx y hy e
  have h1 := wordAt_get (hlt x hx)
  have h2 := wordAt_get (hlt y hy)
  rw [e, ← h2] at h1
  exact (List.getElem?_inj (hlt x hx) hn).1 h1

theorem byScore_sorted' (score : Nat → ℚ) (l : List Nat) : (byScore score l).Pairwise fun i j => score j ≤ score i := by
  have h := List.pairwise_mergeSort (le := fun i j => decide (score j ≤ score i))
    (fun a b c h1 h2 => by simp only [decide_eq_true_eq] at *; exact h2.trans h1)
    (fun a b => by simpa using le_total (score b) (score a)) l
  exact h.imp fun h => by simpa using h

theorem byScore_cut (score : Nat → ℚ) (l : List Nat) (n : Nat) {k : Nat} (hk : k ∈ l) :
    k ∈ (byScore score l).take n ∨ (((byScore score l).take n).length = n ∧ ∀ j ∈ (byScore score l).take n, score k ≤ score j) := by
  have hs := byScore_sorted' score l
  have hp : (byScore score l).Perm l := List.mergeSort_perm _ _
  have hk' : k ∈ (byScore score l).take n ++ (byScore score l).drop n := by
    rw [List.take_append_drop]; exact hp.symm.subset hk
  rcases List.mem_append.1 hk' with h | h
  · exact .inl h
  · refine .inr ⟨?_, fun j hj => ?_⟩
    · have := List.length_pos_of_mem h
      rw [List.length_drop] at this
      rw [List.length_take]; omega
    · rw [← List.take_append_drop n (byScore score l)] at hs
      exact (List.pairwise_append.1 hs).2.2 j hj k h

theorem considered_nodup {comp sims : List Nat} (hc : comp.Nodup) (hs : sims.Nodup) :
    (comp ++ sims.filter (· ∉ comp)).Nodup := by
  rw [List.nodup_append]
  refine ⟨hc, hs.filter _, ?_⟩
  intro a ha b hb e
  subst e
  have := (List.mem_filter.1 hb).2
  simp [ha] at this

section
variable (hw : WordChecker sc c words query) {seq : List Bytes} {last : List Char}
    (ht : sc.tokenize query = seq ++ [utf8 last]) (hf : c.Faithful (c.wordText last)) (hfp : c.Faithful (c.prefixText last))
    {val : LMScore → ℚ} {next : Option ScorerNext} {score : Nat → ℚ} (hn : spellScorer sc seq = .ok next)
    (hsc : ∀ k < words.length, lmScore val next k = .ok (score k)) {oob : Int} {α : ℚ} (h0 : 1 / 2 ^ 20 ≤ α) (h1 : α ≤ 1)
    {K : Nat} (hK : 1 ≤ K) {r : Except Err (List Bytes)} (hr : PredictReturns (f64Ops oob) val sc query K α r)
    {freq : List Char → Nat}

include hw ht hf hfp hn hsc h0 h1 hK hr in
/-- The corrections, if the scores order the words as the frequencies do. -/
theorem corrections_of_scores (hfs : ∀ (i j : Nat) v w, words[i]? = some v → words[j]? = some w → score i ≤ score j → freq v ≤ freq w) :
    ∃ ws : List (List Char), r = .ok (ws.map utf8) ∧ Corrections c (· ∈ words) freq last α K ws := by
  obtain ⟨comp, considered, rfl, hcomp, hcase⟩ := predict_positions hw ht hf hfp hn hsc h0 h1 hK hr
  have hcons : considered.Nodup ∧ ∀ k ∈ considered, k < words.length ∧
      (c.completes last (wordAt words k) ∨ (α : ℝ) * (1 - 1 / 2 ^ 48) ≤ c.wordSim cosineSim last (wordAt words k)) := by
    have hc1 : ∀ k ∈ comp, k < words.length ∧ c.completes last (wordAt words k) := by
      intro k hk
      obtain ⟨w, h1, h2⟩ := hcomp.sound k hk
      exact ⟨hcomp.lt hk, by rw [wordAt_of h1]; exact h2⟩
    rcases hcase with ⟨_, rfl⟩ | ⟨_, sims, hs, rfl⟩
    · exact ⟨hcomp.nodup, fun k hk => ⟨(hc1 k hk).1, .inl (hc1 k hk).2⟩⟩
    · refine ⟨considered_nodup hcomp.nodup hs.nodup, fun k hk => ?_⟩
      rcases List.mem_append.1 hk with h | h
      · exact ⟨(hc1 k h).1, .inl (hc1 k h).2⟩
      · obtain ⟨w, h1, h2⟩ := hs.sound k (List.mem_of_mem_filter h)
        exact ⟨(List.getElem?_eq_some_iff.1 h1).1, .inr (by rw [wordAt_of h1]; exact h2)⟩
  have hp : (byScore score considered).Perm considered := List.mergeSort_perm _ _
  let ids := (byScore score considered).take (K + 1)
  have hids : ∀ k ∈ ids, k ∈ considered := fun k hk => hp.subset (List.mem_of_mem_take hk)
  have hidlt : ∀ k ∈ ids, k < words.length := fun k hk => (hcons.2 k (hids k hk)).1
  have hfreq : ∀ {i j : Nat}, i < words.length → j < words.length → score i ≤ score j → freq (wordAt words i) ≤ freq (wordAt words j) :=
    fun hi hj h => hfs _ _ _ _ (wordAt_get hi) (wordAt_get hj) h
  have hcut : ∀ k ∈ considered, wordAt words k ∈ ids.map (wordAt words) ∨
      ((ids.map (wordAt words)).length = K + 1 ∧ ∀ v ∈ ids.map (wordAt words), freq (wordAt words k) ≤ freq v) := by
    intro k hk
    rcases byScore_cut score considered (K + 1) hk with h | ⟨h2, h3⟩
    · exact .inl (List.mem_map_of_mem h)
    · refine .inr ⟨by rw [List.length_map]; exact h2, ?_⟩
      intro v hv
      obtain ⟨j, hj, rfl⟩ := List.mem_map.1 hv
      exact hfreq (hcons.2 k hk).1 (hidlt j hj) (h3 j hj)
  refine ⟨ids.map (wordAt words), ?_, ?_, ?_, ?_, ?_, ?_, ?_⟩
  · congr 1
    rw [List.map_map]
    apply List.map_congr_left
    intro k hk
    exact hw.dict k _ (wordAt_get (hidlt k hk))
  · rw [List.length_map, List.length_take]; omega
  · exact wordAt_nodup hw.nodup ((hp.nodup_iff.2 hcons.1).sublist (List.take_sublist _ _)) hidlt
  · intro w hw'
    obtain ⟨k, hk, rfl⟩ := List.mem_map.1 hw'
    exact ⟨wordAt_mem (hidlt k hk), (hcons.2 k (hids k hk)).2⟩
  · rw [List.pairwise_map]
    refine ((byScore_sorted' score considered).sublist (List.take_sublist (K + 1) _)).imp_of_mem ?_
    intro a b ha hb h
    exact hfreq (hidlt b hb) (hidlt a ha) h
  · intro w hk hcw
    obtain ⟨k, hk⟩ := List.getElem?_of_mem hk
    rcases hcomp.complete k w hk hcw with h | ⟨hl, h⟩
    · have hkc : k ∈ considered := by
        rcases hcase with ⟨_, rfl⟩ | ⟨_, sims, _, rfl⟩
        · exact h
        · exact List.mem_append_left _ h
      have := hcut k hkc
      rw [wordAt_of hk] at this
      rcases this with h | ⟨h2, h3⟩
      · exact .inl h
      · exact .inr ⟨by omega, h3⟩
    · rcases hcase with ⟨_, rfl⟩ | ⟨hlt, _⟩
      swap
      · omega
      refine .inr ⟨?_, ?_⟩
      · have := hp.length_eq
        rw [List.length_map, List.length_take]; omega
      · intro v hv
        obtain ⟨j, hj, rfl⟩ := List.mem_map.1 hv
        have hle : score k ≤ score j := by
          rcases h j (hids j hj) with h | ⟨h, _⟩
          · exact h.le
          · exact h.le
        exact hfs k j w _ hk (wordAt_get (hidlt j hj)) hle
  · intro hfew w hkw hsim
    obtain ⟨k, hk⟩ := List.getElem?_of_mem hkw
    have hlt : comp.length < K := by
      have := hfew (comp.map (wordAt words)) (wordAt_nodup hw.nodup hcomp.nodup fun k hk => hcomp.lt hk) (by
        intro v hv
        obtain ⟨j, hj, rfl⟩ := List.mem_map.1 hv
        obtain ⟨u, h1, h2⟩ := hcomp.sound j hj
        exact ⟨wordAt_mem (hcomp.lt hj), by rw [wordAt_of h1]; exact h2⟩)
      simpa using this
    rcases hcase with ⟨h, _⟩ | ⟨_, sims, hs, rfl⟩
    · omega
    rcases hs.complete k w hk hsim with h | ⟨h2, h3⟩
    · have hkc : k ∈ comp ++ sims.filter (· ∉ comp) := by
        by_cases hm : k ∈ comp
        · exact List.mem_append_left _ hm
        · exact List.mem_append_right _ (List.mem_filter.2 ⟨h, by simpa using hm⟩)
      have := hcut k hkc
      rw [wordAt_of hk] at this
      rcases this with h | ⟨h2, h3⟩
      · exact .inl h
      · exact .inr (.inl ⟨by omega, h3⟩)
    · refine .inr (.inr ⟨sims.map (wordAt words), wordAt_nodup hw.nodup hs.nodup fun k hk => hs.lt hk, by simpa using h2, ?_⟩)
      intro v hv
      obtain ⟨j, hj, rfl⟩ := List.mem_map.1 hv
      exact ⟨wordAt_mem (hs.lt hj), h3 j hj _ (wordAt_get (hs.lt hj))⟩

include hw ht hf hfp hn h0 h1 hK hr in
/-- The corrections if all scores are equal (a query of one word), and the dictionary is ordered by frequency. -/
theorem corrections_first {s : ℚ} (hsc : ∀ k < words.length, lmScore val next k = .ok s)
    (hfo : ∀ (i j : Nat) v w, words[i]? = some v → words[j]? = some w → i ≤ j → freq w ≤ freq v) :
    ∃ ws a b : List (List Char), r = .ok (ws.map utf8) ∧ FirstWordCorrections c (· ∈ words) freq last α K ws a b := by
  obtain ⟨comp, considered, rfl, hcomp, hcase⟩ := predict_positions (score := fun _ => s) hw ht hf hfp hn hsc h0 h1 hK hr
  have hb : byScore (fun _ => s) considered = considered := by
    unfold byScore
    rw [List.mergeSort_of_pairwise]
    exact List.pairwise_of_forall (by simp)
  rw [hb]
  have hcsorted : (comp.map (wordAt words)).Pairwise fun v w => freq w ≤ freq v := by
    rw [List.pairwise_map]
    refine hcomp.sorted.imp_of_mem ?_
    intro i j hi hj h
    exact hfo i j _ _ (wordAt_get (hcomp.lt hi)) (wordAt_get (hcomp.lt hj)) (by simpa using h)
  have hcsound : ∀ w ∈ comp.map (wordAt words), w ∈ words ∧ c.completes last w := by
    intro v hv
    obtain ⟨j, hj, rfl⟩ := List.mem_map.1 hv
    obtain ⟨u, h1, h2⟩ := hcomp.sound j hj
    exact ⟨wordAt_mem (hcomp.lt hj), by rw [wordAt_of h1]; exact h2⟩
  have hccomplete : ∀ w, w ∈ words → c.completes last w → w ∈ comp.map (wordAt words) ∨
      ((comp.map (wordAt words)).length = K ∧ ∀ v ∈ comp.map (wordAt words), freq w ≤ freq v) := by
    intro w hkw hcw
    obtain ⟨k, hk⟩ := List.getElem?_of_mem hkw
    rcases hcomp.complete k w hk hcw with h | ⟨hl, h⟩
    · exact .inl (List.mem_map.2 ⟨k, h, wordAt_of hk⟩)
    · refine .inr ⟨by simpa using hl, ?_⟩
      intro v hv
      obtain ⟨j, hj, rfl⟩ := List.mem_map.1 hv
      exact hfo j k _ w (wordAt_get (hcomp.lt hj)) hk (by simpa using h j hj)
  rcases hcase with ⟨hl, rfl⟩ | ⟨hl, sims, hs, rfl⟩
  · rw [List.take_of_length_le (by omega)]
    refine ⟨considered.map (wordAt words), considered.map (wordAt words), [], ?_, by simp, by simp [hl], ?_, hcsound, hcsorted, hccomplete,
      by simp, .nil, by rw [if_pos (by simpa using hl)]⟩
    · congr 1
      rw [List.map_map]
      apply List.map_congr_left
      intro k hk
      exact hw.dict k _ (wordAt_get (hcomp.lt hk))
    · exact wordAt_nodup hw.nodup hcomp.nodup fun k hk => hcomp.lt hk
  · have ht' : (comp ++ sims.filter (· ∉ comp)).take (K + 1) = comp ++ (sims.filter (· ∉ comp)).take (K + 1 - comp.length) := by
      rw [List.take_append, List.take_of_length_le (by omega)]
    let rest := (sims.filter (· ∉ comp)).take (K + 1 - comp.length)
    have hrest : ∀ k ∈ rest, k ∈ sims := fun k hk => List.mem_of_mem_filter (List.mem_of_mem_take hk)
    have hnd : (comp ++ rest).Nodup := by
      show (comp ++ (sims.filter (· ∉ comp)).take (K + 1 - comp.length)).Nodup
      rw [← ht']
      exact (considered_nodup hcomp.nodup hs.nodup).sublist (List.take_sublist _ _)
    have hlt : ∀ k ∈ comp ++ rest, k < words.length := by
      intro k hk
      rcases List.mem_append.1 hk with h | h
      · exact hcomp.lt h
      · exact hs.lt (hrest k h)
    refine ⟨(comp ++ rest).map (wordAt words), comp.map (wordAt words), rest.map (wordAt words), ?_, by simp, ?_, ?_, hcsound,
      hcsorted, hccomplete, ?_, ?_, ?_⟩
    · rw [ht']
      congr 1
      rw [List.map_map]
      apply List.map_congr_left
      intro k hk
      exact hw.dict k _ (wordAt_get (hlt k hk))
    · simp only [rest, List.length_map, List.length_append, List.length_take]; omega
    · exact wordAt_nodup hw.nodup hnd hlt
    · intro v hv
      obtain ⟨j, hj, rfl⟩ := List.mem_map.1 hv
      obtain ⟨u, h1, h2⟩ := hs.sound j (hrest j hj)
      exact ⟨wordAt_mem (hs.lt (hrest j hj)), by rw [wordAt_of h1]; exact h2⟩
    · rw [List.pairwise_map]
      have h2 : rest.Pairwise fun i j => ∀ v w, words[i]? = some v → words[j]? = some w →
          c.wordSim cosineSim last w ≤ c.wordSim cosineSim last v :=
        hs.sorted.sublist ((List.take_sublist _ _).trans List.filter_sublist)
      refine h2.imp_of_mem ?_
      intro i j hi hj h
      exact h _ _ (wordAt_get (hs.lt (hrest i hi))) (wordAt_get (hs.lt (hrest j hj)))
    · rw [if_neg (by simp; omega)]
      intro w hkw hsim
      obtain ⟨k, hk⟩ := List.getElem?_of_mem hkw
      rcases hs.complete k w hk hsim with h | ⟨h2, h3⟩
      · by_cases hm : k ∈ comp
        · exact .inl (List.mem_map.2 ⟨k, List.mem_append_left _ hm, wordAt_of hk⟩)
        · have hkf : k ∈ sims.filter (· ∉ comp) := List.mem_filter.2 ⟨h, by simpa using hm⟩
          have hkf' := hkf
          rw [← List.take_append_drop (K + 1 - comp.length) (sims.filter (· ∉ comp))] at hkf'
          rcases List.mem_append.1 hkf' with h | h
          · exact .inl (List.mem_map.2 ⟨k, List.mem_append_right _ h, wordAt_of hk⟩)
          · refine .inr (.inl ⟨?_, ?_⟩)
            · have h4 := List.length_pos_of_mem h
              rw [List.length_drop] at h4
              simp only [rest, List.length_map, List.length_append, List.length_take]; omega
            · intro v hv
              obtain ⟨j, hj, rfl⟩ := List.mem_map.1 hv
              have h5 := (hs.sorted.sublist (List.filter_sublist (p := fun x => decide (x ∉ comp))))
              rw [← List.take_append_drop (K + 1 - comp.length) (sims.filter (· ∉ comp))] at h5
              exact (List.pairwise_append.1 h5).2.2 j hj k h _ _ (wordAt_get (hs.lt (hrest j hj))) hk
      · refine .inr (.inr ⟨sims.map (wordAt words), wordAt_nodup hw.nodup hs.nodup fun k hk => hs.lt hk, by simpa using h2, ?_⟩)
        intro v hv
        obtain ⟨j, hj, rfl⟩ := List.mem_map.1 hv
        exact ⟨wordAt_mem (hs.lt hj), h3 j hj _ (wordAt_get (hs.lt hj))⟩

end

/-- `Predict` does answer. -/
theorem predict_answers (hw : WordChecker sc c words query) {files : List (List (List Nat × Nat))} {id : Bytes → Nat} {start : Nat}
    (hm : SpellModel sc files id start) {seq : List Bytes} {last : List Char} (ht : sc.tokenize query = seq ++ [utf8 last])
    (hf : c.Faithful (c.wordText last)) {val : LMScore → ℚ} {oob : Int} {α : ℚ} (h0 : 1 / 2 ^ 20 ≤ α) (h1 : α ≤ 1)
    {K : Nat} (hK : 1 ≤ K)
    (hlong : ∃ (k : Nat) (w : List Char), words[k]? = some w ∧
      (cosineMetric (f64Ops oob)).minY α (c.grams (c.wordText last)).length ≤ (c.grams (c.wordText w)).length) :
    ¬ PredictPanics (f64Ops oob) val sc query K α ∧ ¬ PredictBlocks (f64Ops oob) val sc query K α ∧
    ¬ PredictRunsForever (f64Ops oob) val sc query K α ∧ ∃ ws, PredictReturns (f64Ops oob) val sc query K α (.ok ws) := by
  obtain ⟨G, LG, hoi⟩ := hw.index.index
  obtain ⟨L⟩ := hw.index.lawful
  have hg := hw.index.grams _ ⟨_, ht⟩
  have hge := hw.grams last hf
  have hfuzzy : let call := suggestCall (f64Ops oob) (cosineMetric (f64Ops oob)) sc.ρ sc.sort sc.index (sc.grams (utf8 last)) α K
      ¬ SuggestPanics call ∧ ¬ SuggestBlocks call ∧ ∃ fs, SuggestReturns call (.ok fs) := by
    intro call
    obtain ⟨k, w, hk, hle⟩ := hlong
    obtain ⟨k1, k2, _, r, k4⟩ := C30_float_terminates_partial L LG hw.index.good hw.index.first hoi hw.index.sort hg.2 hg.1 h0 h1
      (fun x hx => by
        obtain ⟨k, w, h, rfl⟩ := mem_wordDocs.1 hx
        simpa [wordDoc] using hw.small w (List.mem_of_getElem? h)) (.cosine) hK
      ⟨wordDoc c k w, mem_wordDocs.2 ⟨k, w, hk, rfl⟩, by rw [hge]; simpa [wordDoc] using hle⟩
    obtain ⟨fs, rfl, _⟩ := resembling hw ⟨_, ht⟩ hf h0 h1 hK k4
    exact ⟨k1, k2, fs, k4⟩
  have same : ∀ {s' w'}, sc.tokenize query = s' ++ [w'] → seq = s' ∧ utf8 last = w' := by
    intro s' w' h
    rw [ht] at h
    have := List.append_inj' h rfl
    simpa using this
  obtain ⟨next, score, hn, hsc⟩ := spell_score_exists hw.index hm val seq
  obtain ⟨a1, a2, cs, a3⟩ := lm_terminates hw.index hsc hK (utf8 last) ⟨_, ht⟩
  refine ⟨?_, ?_, ?_, ?_⟩
  · rintro (⟨h1, h2, h3⟩ | ⟨h1, h2, h3, h4, h5⟩) <;> obtain ⟨rfl, rfl⟩ := same h1
    · rw [hn] at h2; cases h2
      exact a1 h3
    · exact hfuzzy.1 h5
  · rintro (⟨h1, h2, h3⟩ | ⟨h1, h2, h3, h4, h5⟩) <;> obtain ⟨rfl, rfl⟩ := same h1
    · rw [hn] at h2; cases h2
      exact a2 h3
    · exact hfuzzy.2.1 h5
  · rintro (⟨h1, h2, h3⟩ | ⟨h1, h2, h3⟩)
    · exact ano_infinite_run _ h3
    · exact no_infinite_run _ h3
  · have hfin : ∃ r, PredictReturns (f64Ops oob) val sc query K α r := by
      by_cases hl : (cs.length : Int) < K
      · obtain ⟨_, _, fs, hfs⟩ := hfuzzy
        exact ⟨_, .fuzzy ht hn a3 hl hfs⟩
      · exact ⟨_, .enough ht hn a3 (by omega)⟩
    obtain ⟨r, hr⟩ := hfin
    obtain ⟨considered, e, _⟩ := predict_returns hw.index hsc hK ht hn
      (P := fun fs => Resembling c words last α K (fs.map Candidate.key))
      (by
        intro fs h
        refine ⟨h.nodup, fun x hx => ?_⟩
        obtain ⟨w, hk, _⟩ := h.sound x.key (List.mem_map_of_mem hx)
        exact List.mem_map.2 ⟨_, mem_wordDocs.2 ⟨_, w, hk, rfl⟩, rfl⟩)
      (fun h => resembling hw ⟨_, ht⟩ hf h0 h1 hK h) hr
    rw [e] at hr
    exact ⟨_, hr⟩

end Verif.Correct
