import Verif.Proofs.LMScore
import Mathlib.Analysis.SpecialFunctions.Log.Basic
/- C43 (packed array lookup is a map), C44 (scores), C45 (next-word context), C61 (sentence scores). -/
namespace Verif.Props
open Verif.Spec

/-! ### C43 -/

/-- All entries (context, word, count) put into one builder, in any order, with repetitions. -/
def putAll (entries : List ((Nat × Nat) × Nat)) : List NGramNode :=
  entries.foldl (fun t e => treePut (pack e.1.1 e.1.2) e.2 t) []

/-- The sum of the counts put for a (context, word) pair. -/
def pairTotal (entries : List ((Nat × Nat) × Nat)) (context word : Nat) : Nat :=
  ((entries.filter fun e => decide (e.1 = (context, word))).map Prod.snd).sum

theorem putAll_inv (entries : List ((Nat × Nat) × Nat)) (hc : ∀ e ∈ entries, e.2 < 2 ^ 32) (es : List (Nat × Nat))
    (t : List NGramNode) (h : TreeInv es t) :
    TreeInv (es ++ entries.map fun e => (pack e.1.1 e.1.2, e.2)) (entries.foldl (fun t e => treePut (pack e.1.1 e.1.2) e.2 t) t) := by
  induction entries generalizing es t with
  | nil => simpa using h
  | cons e entries ih =>
    have := ih (fun x hx => hc x (by simp [hx])) _ _ (treeInv_put h (k := pack e.1.1 e.1.2) pack_lt (hc e (by simp)))
    simpa using this

/-- C43, one vector: whatever pairs (context, word) with whatever counts were put (fewer than 2^32-2 entries), the built
vector answers every 32-bit pair with the sum of the counts put for it (in uint32 arithmetic) and with an offset that no
other pair gets, and answers (0, InvalidContextOffset) exactly for the pairs never put. -/
theorem C43_lookup (entries : List ((Nat × Nat) × Nat)) (hn : entries.length ≤ 2 ^ 32 - 3)
    (hs : ∀ e ∈ entries, e.1.1 < 2 ^ 32 ∧ e.1.2 < 2 ^ 32 ∧ e.2 < 2 ^ 32) :
    ∃ offset : Nat × Nat → Nat,
      (∀ c w, c < 2 ^ 32 → w < 2 ^ 32 → (createPackedArray (putAll entries)).getCount w c =
        .ok (pairTotal entries c w % 2 ^ 32, offset (c, w))) ∧
      (∀ c w, c < 2 ^ 32 → w < 2 ^ 32 → (∀ e ∈ entries, e.1 ≠ (c, w)) → offset (c, w) = invalidContext) ∧
      (∀ e ∈ entries, offset e.1 < entries.length) ∧
      (∀ e ∈ entries, ∀ e' ∈ entries, offset e.1 = offset e'.1 → e.1 = e'.1) := by
  have hT := putAll_inv entries (fun e he => (hs e he).2.2) [] [] ⟨⟨by simp, by simp⟩, by simp, by simp⟩
  simp only [List.nil_append] at hT
  change TreeInv _ (putAll entries) at hT
  generalize hts : putAll entries = t at hT
  have hi := invalidContext_eq
  have hlen := hT.len
  simp only [List.length_map] at hlen
  have htl : t.length ≤ invalidContext := by omega
  have hkt : ∀ c w, c < 2 ^ 32 → w < 2 ^ 32 →
      keyTotal (entries.map fun e => (pack e.1.1 e.1.2, e.2)) (pack c w) = pairTotal entries c w := by
    intro c w hc hw
    unfold keyTotal pairTotal
    rw [List.filter_map, List.map_map]
    congr 1
    have h2 : List.filter ((fun e => e.1 == pack c w) ∘ fun e : (Nat × Nat) × Nat => (pack e.1.1 e.1.2, e.2)) entries =
        List.filter (fun e => decide (e.1 = (c, w))) entries := by
      apply List.filter_congr
      intro e he
      have hse := hs e he
      by_cases h : e.1 = (c, w)
      · simp [h]
      · have : pack e.1.1 e.1.2 ≠ pack c w := fun hh => h (by
          obtain ⟨h1, h2⟩ := pack_inj hse.1 hse.2.1 hc hw hh
          exact Prod.ext h1 h2)
        simp [h, this]
    rw [h2]; rfl
  have hpres : ∀ e ∈ entries, ∃ k < t.length, t[k]? = some (pack e.1.1 e.1.2, pairTotal entries e.1.1 e.1.2 % 2 ^ 32) ∧
      (createPackedArray t).getCount e.1.2 e.1.1 = .ok (pairTotal entries e.1.1 e.1.2 % 2 ^ 32, k) := by
    intro e he
    have hse := hs e he
    have hm : (pack e.1.1 e.1.2, pairTotal entries e.1.1 e.1.2 % 2 ^ 32) ∈ t := by
      rw [hT.mem, hkt _ _ hse.1 hse.2.1]
      exact ⟨⟨(pack e.1.1 e.1.2, e.2), List.mem_map.2 ⟨e, he, rfl⟩, rfl⟩, rfl⟩
    obtain ⟨k, hk⟩ := List.getElem?_of_mem hm
    exact ⟨k, (List.getElem?_eq_some_iff.1 hk).1, hk, vector_at hT.sorted htl hse.2.1 hse.1 hk⟩
  have habs : ∀ c w, c < 2 ^ 32 → w < 2 ^ 32 → (∀ e ∈ entries, e.1 ≠ (c, w)) →
      (createPackedArray t).getCount w c = .ok (0, invalidContext) := by
    intro c w hc hw hno
    apply vector_absent hT.sorted htl
    rintro ⟨q, d⟩ hn heq
    simp only at heq
    subst heq
    obtain ⟨⟨e, he, h1⟩, _⟩ := (hT.mem _ _).1 hn
    obtain ⟨e0, he0, rfl⟩ := List.mem_map.1 he
    have hse := hs e0 he0
    obtain ⟨h2, h3⟩ := pack_inj hse.1 hse.2.1 hc hw h1
    exact hno e0 he0 (Prod.ext h2 h3)
  refine ⟨fun cw => match (createPackedArray t).getCount cw.2 cw.1 with | .ok (_, i) => i | .error _ => 0, ?_, ?_, ?_, ?_⟩
  · intro c w hc hw
    by_cases hin : ∃ e ∈ entries, e.1 = (c, w)
    · obtain ⟨e, he, hee⟩ := hin
      obtain ⟨k, _, _, h2⟩ := hpres e he
      rw [hee] at h2
      simp only [h2]
    · have h0 := habs c w hc hw fun e he h => hin ⟨e, he, h⟩
      have : pairTotal entries c w = 0 := by
        unfold pairTotal
        rw [List.filter_eq_nil_iff.2]
        · rfl
        · intro e he heq; exact hin ⟨e, he, by simpa using heq⟩
      simp only [h0, this, Nat.zero_mod]
  · intro c w hc hw hno
    simp only [habs c w hc hw hno]
  · intro e he
    obtain ⟨k, h1, _, h2⟩ := hpres e he
    simp only [h2]; omega
  · intro e he e' he' heq
    obtain ⟨k, _, h1, h2⟩ := hpres e he
    obtain ⟨k', _, h1', h2'⟩ := hpres e' he'
    simp only [h2, h2'] at heq
    subst heq
    rw [h1] at h1'
    injection h1' with h1'
    injection h1' with h1' _
    have a := hs e he
    have b := hs e' he'
    obtain ⟨x, y⟩ := pack_inj a.1 a.2.1 b.1 b.2.1 h1'
    exact Prod.ext x y

/-- A concrete vector: pairs put out of order and repeatedly. -/
example : (createPackedArray (putAll [((7, 2), 5), ((1, 9), 3), ((7, 2), 4)])).getCount 2 7 = .ok (9, 1) ∧
    (createPackedArray (putAll [((7, 2), 5), ((1, 9), 3), ((7, 2), 4)])).getCount 9 7 = .ok (0, invalidContext) := by
  decide +kernel

/-- C43, all orders: from the count files of a corpus the reader builds one vector per order, and there is an offset for
every n-gram such that following the words of any n-gram from vector to vector, each lookup returns the count of the
prefix read so far (uint32) and its offset; offsets of different n-grams of one order differ and the n-grams without a
line (and only they) have InvalidContextOffset. -/
theorem C43_model {files : List (List (List Nat × Nat))} (hG : GoodFiles files) (hne : files ≠ []) :
    ∃ vs, readModel files = .ok vs ∧ vs.length = files.length ∧ ∃ offset : List Nat → Nat,
      offset [] = invalidContext ∧
      (∀ (v : PackedArray) g w, vs[g.length]? = some v → (∀ x ∈ g ++ [w], x < 2 ^ 32) →
        v.getCount w (offset g) = .ok (gramCount files (g ++ [w]) % 2 ^ 32, offset (g ++ [w]))) ∧
      (∀ g, g ≠ [] → g.length ≤ files.length → (∀ x ∈ g, x < 2 ^ 32) → (offset g ≠ invalidContext ↔ inFiles files g)) ∧
      (∀ g g', g.length = g'.length → g.length ≤ files.length → (∀ x ∈ g ++ g', x < 2 ^ 32) →
        offset g ≠ invalidContext → offset g = offset g' → g = g') := by
  obtain ⟨vs, ctx, h1, L⟩ := readModel_ok hG hne
  have hlt : ∀ g, ctx g ≠ invalidContext ↔ ctx g < invalidContext := fun g => by have := L.small g; omega
  refine ⟨vs, h1, L.len, ctx, L.nil, ?_, ?_, ?_⟩
  · intro v g w hv hx
    exact level_get L hv (fun x h => hx x (by simp [h])) (hx w (by simp))
  · intro g hg hl hx
    rw [hlt]
    have hp : 0 < g.length := List.length_pos_of_ne_nil hg
    have hk : g.length - 1 < files.length := by omega
    rw [L.known (g.length - 1) files[g.length - 1] g (List.getElem?_eq_getElem hk) (by omega) hx]
    simp [inFiles, inFile, List.getD_eq_getElem?_getD, List.getElem?_eq_getElem hk]
  · intro g g' hl hle hx hn heq
    exact L.inj g g' hl hle (fun x h => hx x (by simp [h])) (fun x h => hx x (by simp [h])) ((hlt g).1 hn) heq

/-- What C43 does not give: if a file has an n-gram whose prefix has no line in the file before, the builder files it under
InvalidContextOffset, together with all others of that kind, and their counts are mixed up. -/
theorem C43_unknown_prefix_merged : ∃ vs v, readModel [[([1], 1)], [([8, 1], 5), ([9, 1], 7)]] = .ok vs ∧ vs[1]? = some v ∧
    v.getCount 1 invalidContext = .ok (12, 0) := by
  refine ⟨[createPackedArray [(pack invalidContext 1, 1)], createPackedArray [(pack invalidContext 1, 12)]], _, ?_, rfl, ?_⟩
  · decide +kernel
  · decide +kernel

/-! ### C44 -/

/-- The value of a score; logarithms are real. -/
noncomputable def scoreValue : LMScore → ℝ
  | .unknown => -100
  | .ratio steps num den => Real.log ((2 / 5 : ℝ) ^ steps * num / den)

theorem take_counts {files : List (List (List Nat × Nat))} (hC : CorpusFiles files) {vs : List PackedArray}
    {ctx : List Nat → Nat} (L : Levels files vs ctx) {g : List Nat} (hg : g ≠ []) (hx : ∀ x ∈ g, x < 2 ^ 32)
    (hl : g.length ≤ files.length) :
    modelScore vs g = .ok (calcScore ((List.range (g.length + 1)).map fun i => contextCount files (g.take i))) := by
  rw [modelScore_eq L hx]
  have hvs : vs ≠ [] := by
    intro h
    have := L.len
    rw [h] at this
    have := List.length_pos_of_ne_nil hg
    simp only [List.length_nil] at *; omega
  rw [if_neg (by simp [hg, hvs])]
  have hlen := L.len
  rw [Nat.min_eq_left (by omega), List.range_succ_eq_map, List.map_cons, List.map_map, Nat.mod_eq_of_lt hC.sizeFits]
  congr 2
  congr 1
  apply List.map_congr_left
  intro i hi
  have hi := List.mem_range.1 hi
  have : g.take (i + 1) ≠ [] := by simp [hg]
  simp only [Function.comp_apply, contextCount, Nat.succ_eq_add_one, if_neg this]
  exact Nat.mod_eq_of_lt (hC.fits _)

/-- C44, what the code computes: with j the length of the longest prefix of the n-gram with a positive count, the score is
log(0.4^(n-j) · C(first j words) / C(first j-1 words)), where the count of the empty prefix is the corpus size; it is -100
if no prefix has a positive count. Counts are the exact counts of the files.

Missing for the full property: stupid back-off drops the oldest word, the code drops the newest (`C44_backoff_wrong`); the
two agree if the whole n-gram was seen (`C44_seen`). -/
theorem C44_score_partial {files : List (List (List Nat × Nat))} (hC : CorpusFiles files) (hne : files ≠ []) :
    ∃ vs, readModel files = .ok vs ∧ ∀ g : List Nat, g ≠ [] → g.length ≤ files.length → (∀ x ∈ g, x < 2 ^ 32) →
      (∀ j, 1 ≤ j → j ≤ g.length → 0 < gramCount files (g.take j) →
        (∀ i, j < i → i ≤ g.length → gramCount files (g.take i) = 0) →
        modelScore vs g = .ok (.ratio (g.length - j) (gramCount files (g.take j)) (contextCount files (g.take (j - 1))))) ∧
      ((∀ j, 1 ≤ j → j ≤ g.length → gramCount files (g.take j) = 0) → modelScore vs g = .ok .unknown) := by
  obtain ⟨vs, ctx, h1, L⟩ := readModel_ok hC.toGoodFiles hne
  refine ⟨vs, h1, fun g hg hl hx => ?_⟩
  rw [take_counts hC L hg hx hl]
  have hget : ∀ i, i ≤ g.length → ((List.range (g.length + 1)).map fun i => contextCount files (g.take i)).getD i 0 =
      contextCount files (g.take i) := by
    intro i hi
    rw [List.getD_eq_getElem?_getD, List.getElem?_map, List.getElem?_range (by omega)]
    rfl
  have hcc : ∀ i, 1 ≤ i → contextCount files (g.take i) = gramCount files (g.take i) := by
    intro i hi
    have : g.take i ≠ [] := by simp [hg]; omega
    simp [contextCount, this]
  unfold calcScore
  simp only [List.length_map, List.length_range, Nat.add_sub_cancel]
  refine ⟨?_, ?_⟩
  · intro j hj1 hj2 hpos hz
    rw [calcLoop_ratio _ _ 0 j hj1 hj2 (by rw [hget j hj2, hcc j hj1]; exact hpos)
      (fun i hi1 hi2 => by rw [hget i hi2, hcc i (by omega)]; exact hz i hi1 hi2), hget j hj2, hget (j - 1) (by omega), hcc j hj1]
    simp
  · intro hz
    rw [calcLoop_unknown _ _ _ fun i hi1 hi2 => by rw [hget i hi2, hcc i hi1]; exact hz i hi1 hi2]

/-- An n-gram longer than the order is scored by its first `order` words. -/
theorem C44_longer_partial {files : List (List (List Nat × Nat))} (hC : CorpusFiles files) (hne : files ≠ []) :
    ∃ vs, readModel files = .ok vs ∧ ∀ g : List Nat, files.length ≤ g.length → (∀ x ∈ g, x < 2 ^ 32) →
      modelScore vs g = modelScore vs (g.take files.length) := by
  obtain ⟨vs, ctx, h1, L⟩ := readModel_ok hC.toGoodFiles hne
  refine ⟨vs, h1, fun g hl hx => ?_⟩
  have hlen := L.len
  have hpos : 0 < files.length := List.length_pos_of_ne_nil hne
  rw [modelScore_eq L hx, modelScore_eq L fun x h => hx x (List.mem_of_mem_take h)]
  have : g ≠ [] := by intro h; rw [h] at hl; simp only [List.length_nil] at hl; omega
  have h2 : g.take files.length ≠ [] := by simp [this, hne]
  simp only [this, h2, false_or, List.length_take]
  congr 2
  congr 1
  rw [hlen, Nat.min_eq_right hl, Nat.min_eq_left hl, Nat.min_self]
  apply List.map_congr_left
  intro i hi
  have hi := List.mem_range.1 hi
  rw [List.take_take, Nat.min_eq_left (by omega)]

/-- C44 for seen n-grams: the score is the one of stupid back-off. -/
theorem C44_seen {files : List (List (List Nat × Nat))} (hC : CorpusFiles files) (hne : files ≠ []) :
    ∃ vs, readModel files = .ok vs ∧ ∀ (context : List Nat) (w : Nat), context.length + 1 ≤ files.length →
      (∀ x ∈ context ++ [w], x < 2 ^ 32) → 0 < gramCount files (context ++ [w]) →
      ∃ s n d, stupidBackoff files w context = some (s, n, d) ∧ modelScore vs (context ++ [w]) = .ok (.ratio s n d) := by
  obtain ⟨vs, h1, h⟩ := C44_score_partial hC hne
  refine ⟨vs, h1, fun context w hl hx hpos => ?_⟩
  refine ⟨0, gramCount files (context ++ [w]), contextCount files context, ?_, ?_⟩
  · cases context with
    | nil => simp only [stupidBackoff]; simp only [List.nil_append] at hpos ⊢; rw [if_pos hpos]; simp [contextCount]
    | cons c cs => simp only [stupidBackoff]; rw [if_pos hpos]
  · have ht : (context ++ [w]).take (context.length + 1) = context ++ [w] := List.take_of_length_le (by simp)
    have := (h (context ++ [w]) (by simp) (by simpa using hl) hx).1 (context.length + 1) (by omega) (by simp)
      (by rw [ht]; exact hpos) (fun i h1 h2 => by simp at h2; omega)
    rw [this, ht]
    simp

/-- The count files of the corpus "1 2", "2 3" (words 1, 2, 3), with order 3; there are no trigrams. -/
def twoSentences : List (List (List Nat × Nat)) := [[([1], 1), ([2], 2), ([3], 1)], [([1, 2], 1), ([2, 3], 1)], []]

theorem gramCount_mem {files : List (List (List Nat × Nat))} {g : List Nat} (h : 0 < gramCount files g) : inFiles files g := by
  by_contra hno
  have : totalCount (files.getD (g.length - 1) []) g = 0 := totalCount_zero hno
  unfold gramCount at h
  omega

theorem twoSentences_corpus : CorpusFiles twoSentences := by
  have hk : ∀ {P : Nat → List (List Nat × Nat) → Prop}, P 0 [([1], 1), ([2], 2), ([3], 1)] → P 1 [([1, 2], 1), ([2, 3], 1)] →
      P 2 [] → ∀ (k : Nat) F, twoSentences[k]? = some F → P k F := by
    intro P h0 h1 h2 k F h
    match k, h with
    | 0, h => simp [twoSentences] at h; subst h; exact h0
    | 1, h => simp [twoSentences] at h; subst h; exact h1
    | 2, h => simp [twoSentences] at h; subst h; exact h2
    | k + 3, h => simp [twoSentences] at h
  refine ⟨⟨?_, ?_, ?_, ?_, ?_⟩, ?_, ?_, ?_⟩
  · exact hk (by decide) (by decide) (by decide)
  · decide
  · decide
  · intro k F h e he
    match k, h with
    | 0, h =>
      simp [twoSentences] at h; subst h
      simp at he
      rcases he with rfl | rfl
      · exact ⟨([1], 1), by simp [twoSentences], rfl⟩
      · exact ⟨([2], 2), by simp [twoSentences], rfl⟩
    | 1, h => simp [twoSentences] at h; subst h; simp at he
    | k + 2, h => simp [twoSentences] at h
  · decide
  · decide
  · intro g
    by_contra hno
    obtain ⟨e, he, rfl⟩ := gramCount_mem (files := twoSentences) (g := g) (by omega)
    have hmem : e ∈ twoSentences.flatten := by
      rw [List.getD_eq_getElem?_getD] at he
      cases hF : twoSentences[e.1.length - 1]? with
      | none => rw [hF] at he; simp at he
      | some F =>
        rw [hF] at he
        exact List.mem_flatten.2 ⟨F, List.mem_of_getElem? hF, he⟩
    revert hno
    revert hmem
    revert he
    have : ∀ e ∈ twoSentences.flatten, gramCount twoSentences e.1 < 2 ^ 32 := by decide
    exact fun _ hm hno => hno (this e hm)
  · decide

/-- The hypotheses of C43_model are met. -/
example : GoodFiles twoSentences ∧ twoSentences ≠ [] := ⟨twoSentences_corpus.toGoodFiles, by decide⟩

/-- C44 is false for unseen n-grams: after "1 2", the unseen word 3 must be scored by backing off to the context "2":
log(0.4·C(2 3)/C(2)) = log 0.2. The code scores it by the first two words of the trigram: log(0.4·C(1 2)/C(1)) = log 0.4. -/
theorem C44_backoff_wrong : ∃ vs, readModel twoSentences = .ok vs ∧
    stupidBackoff twoSentences 3 [1, 2] = some (1, 1, 2) ∧ modelScore vs [1, 2, 3] = .ok (.ratio 1 1 1) ∧
    scoreValue (.ratio 1 1 1) ≠ scoreValue (.ratio 1 1 2) := by
  obtain ⟨vs, h1, h⟩ := C44_score_partial twoSentences_corpus (by decide)
  refine ⟨vs, h1, by decide, ?_, ?_⟩
  · have := (h [1, 2, 3] (by simp) (by decide) (by decide)).1 2 (by decide) (by decide) (by decide) (by
      intro i h1 h2
      have : i = 3 := by simp at h2; omega
      subst this; decide)
    rw [this]; decide
  · intro heq
    have := Real.log_injOn_pos (by norm_num) (by norm_num) heq
    norm_num at this

/-- The hypotheses of C44_seen are met, by the bigram "2 3" after "2". -/
example : CorpusFiles twoSentences ∧ 0 < gramCount twoSentences ([2] ++ [3]) ∧ stupidBackoff twoSentences 3 [2] = some (0, 1, 2) :=
  ⟨twoSentences_corpus, by decide, by decide⟩

/-- A word that was never seen gets a score better than -100 as soon as the context was seen, although by stupid back-off
it is unknown. -/
theorem C44_unseen_word_wrong : ∃ vs, readModel twoSentences = .ok vs ∧ stupidBackoff twoSentences 9 [1] = none ∧
    modelScore vs [1, 9] = .ok (.ratio 1 1 4) := by
  obtain ⟨vs, h1, h⟩ := C44_score_partial twoSentences_corpus (by decide)
  refine ⟨vs, h1, by decide, ?_⟩
  have := (h [1, 9] (by simp) (by decide) (by decide)).1 1 (by decide) (by decide) (by decide) (by
    intro i h1 h2
    have : i = 2 := by simp at h2; omega
    subst this; decide)
  rw [this]; decide

/-! ### C45 -/

/-- `r` is what a model must return for the continuations of the context `c`: a scorer giving every word its relative
frequency after `c` (or the unknown score if it never followed `c`), or no scorer if nothing ever followed `c`. -/
def ScoresAfter (files : List (List (List Nat × Nat))) (c : List Nat) (r : Except Err (Option ScorerNext)) : Prop :=
  (r = .ok none ∧ ∀ w < 2 ^ 32, gramCount files (c ++ [w]) = 0) ∨
  ∃ s, r = .ok (some s) ∧ ∀ w < 2 ^ 32, s.score w = .ok (if 0 < gramCount files (c ++ [w]) then
    .ratio 0 (gramCount files (c ++ [w])) (gramCount files c) else .unknown)

theorem gramCount_pos {files : List (List (List Nat × Nat))} (hC : CorpusFiles files) {g : List Nat} (h : inFiles files g) :
    0 < gramCount files g := by
  obtain ⟨e, he, rfl⟩ := h
  unfold gramCount totalCount
  have hpos : 0 < e.2 := by
    rw [List.getD_eq_getElem?_getD] at he
    cases hF : files[e.1.length - 1]? with
    | none => rw [hF] at he; simp at he
    | some F =>
      rw [hF] at he
      exact hC.positive F (List.mem_of_getElem? hF) e he
  have hmem : e.2 ∈ ((files.getD (e.1.length - 1) []).filter fun pc => decide (pc.1 = e.1)).map Prod.snd :=
    List.mem_map.2 ⟨e, List.mem_filter.2 ⟨he, by simp⟩, rfl⟩
  exact Nat.lt_of_lt_of_le hpos (List.le_sum_of_mem hmem)

theorem gramCount_prefix {files : List (List (List Nat × Nat))} (hC : CorpusFiles files) (g : List Nat) (w : Nat)
    (hg : g ≠ []) (hl : g.length < files.length) (h : 0 < gramCount files (g ++ [w])) : 0 < gramCount files g := by
  obtain ⟨e, he, heq⟩ := gramCount_mem h
  have hp : 0 < g.length := List.length_pos_of_ne_nil hg
  have hF : files[g.length - 1 + 1]? = some files[g.length] := by
    rw [show g.length - 1 + 1 = g.length by omega]; exact List.getElem?_eq_getElem hl
  have he' : e ∈ files[g.length] := by
    simpa [List.getD_eq_getElem?_getD, List.getElem?_eq_getElem hl] using he
  have := hC.closed _ _ hF e he'
  rw [heq] at this
  simp at this
  exact gramCount_pos hC this

theorem gramCount_take {files : List (List (List Nat × Nat))} (hC : CorpusFiles files) (g : List Nat) (hl : g.length ≤ files.length)
    (h : 0 < gramCount files g) : ∀ n j, j + n = g.length → 1 ≤ j → 0 < gramCount files (g.take j) := by
  intro n
  induction n with
  | zero => intro j hj _; rw [List.take_of_length_le (by omega)]; exact h
  | succ n ih =>
    intro j hj h1
    have hs := ih (j + 1) (by omega) (by omega)
    rw [List.take_succ_eq_append_getElem (by omega)] at hs
    apply gramCount_prefix hC _ _ _ _ hs
    · intro h0
      have := congrArg List.length h0
      simp only [List.length_take, List.length_nil] at this; omega
    · simp only [List.length_take]; omega

theorem modelNext_scoresAfter {files : List (List (List Nat × Nat))} (hC : CorpusFiles files) {vs : List PackedArray}
    {ctx : List Nat → Nat} (L : Levels files vs ctx) {c : List Nat} (hc : c ≠ []) (hl : c.length < files.length)
    (hx : ∀ x ∈ c, x < 2 ^ 32) : ScoresAfter files c (modelNext vs c) := by
  have hlen := L.len
  have hp : 0 < c.length := List.length_pos_of_ne_nil hc
  unfold modelNext
  rw [if_neg (by omega)]
  have hn := nextLoop_eq L c [] vs [] (by simp) (by simp; omega) (by simpa using hx)
  rw [L.nil] at hn
  simp only [List.nil_append] at hn
  have hmod : ∀ g, gramCount files g % 2 ^ 32 = gramCount files g := fun g => Nat.mod_eq_of_lt (hC.fits g)
  simp only [hmod] at hn
  by_cases hz : ∃ i < c.length, gramCount files (c.take (i + 1)) = 0
  · rw [hn.1 hz]
    refine .inl ⟨rfl, fun w hw => ?_⟩
    by_contra hne
    obtain ⟨i, hi, h0⟩ := hz
    have := gramCount_take hC (c ++ [w]) (by simp; omega) (by omega) (c.length - i) (i + 1) (by simp; omega) (by omega)
    rw [List.take_append_of_le_length (by omega)] at this
    omega
  · obtain ⟨v, hv, hr⟩ := hn.2 fun i hi h => hz ⟨i, hi, h⟩
    rw [hr]
    simp only
    have hF : files[c.length]? = some files[c.length] := List.getElem?_eq_getElem hl
    have hknown : ctx c < invalidContext := by
      have hk : c.length - 1 < files.length := by omega
      rw [L.known (c.length - 1) files[c.length - 1] c (List.getElem?_eq_getElem hk) (by omega) hx]
      have h0 : gramCount files c ≠ 0 := fun h => hz ⟨c.length - 1, by omega, by
        rw [List.take_of_length_le (by omega)]; exact h⟩
      obtain ⟨e, he, hee⟩ := gramCount_mem (files := files) (g := c) (by omega)
      refine ⟨e, ?_, hee⟩
      simpa [List.getD_eq_getElem?_getD, List.getElem?_eq_getElem hk] using he
    have hsub := L.sub c.length files[c.length] v c hF hv rfl hx (.inr hknown)
    by_cases hex : ∃ w, inFile files[c.length] (c ++ [w])
    · obtain ⟨s, hs, hg⟩ := hsub.1 hex
      rw [hs]
      refine .inr ⟨_, rfl, fun w hw => ?_⟩
      have := level_get L hv hx hw
      simp only [ScorerNext.score, hg, this, hmod]
      by_cases h0 : gramCount files (c ++ [w]) = 0
      · rw [if_pos h0, if_neg (by omega)]
      · rw [if_neg h0, if_pos (by omega)]
        congr 1
        unfold calcScore
        have hlc : ((List.range c.length).map fun i => gramCount files (c.take (i + 1))).length = c.length := by simp
        rw [List.length_append, hlc]
        simp only [List.length_singleton, Nat.add_sub_cancel]
        have g1 : (((List.range c.length).map fun i => gramCount files (c.take (i + 1))) ++ [gramCount files (c ++ [w])]).getD
            c.length 0 = gramCount files (c ++ [w]) := by
          rw [List.getD_eq_getElem?_getD, List.getElem?_append_right (by simp)]; simp
        have g2 : (((List.range c.length).map fun i => gramCount files (c.take (i + 1))) ++ [gramCount files (c ++ [w])]).getD
            (c.length - 1) 0 = gramCount files c := by
          rw [List.getD_eq_getElem?_getD, List.getElem?_append_left (by simp; omega), List.getElem?_map,
            List.getElem?_range (by omega)]
          simp only [Option.map_some, Option.getD_some]
          rw [List.take_of_length_le (by omega)]
        rw [calcLoop_ratio _ _ 0 c.length (by omega) (by omega) (by rw [g1]; omega) (fun i h1 h2 => by omega), g1, g2]
        simp
    · rw [hsub.2 hex]
      refine .inl ⟨rfl, fun w _ => ?_⟩
      by_contra hne
      obtain ⟨e, he, hee⟩ := gramCount_mem (files := files) (g := c ++ [w]) (by omega)
      refine hex ⟨w, e, ?_, hee⟩
      simpa [List.getD_eq_getElem?_getD, hF] using he

/-- C45 (all lengths but one): with a model of order >= 2 read from count files, Next of a sequence of at least order-1
words, but not of exactly `order` words, scores the continuations of the last order-1 words; a shorter sequence is
completed by the start symbol on the left and scored after all its words.

Missing for the full property: for sequences of exactly `order` words it is false (`C45_equal_length_wrong`), and with
order 1 Next always fails (`C45_order_one`). -/
theorem C45_recent_words_partial {files : List (List (List Nat × Nat))} (hC : CorpusFiles files) (hn : 2 ≤ files.length) :
    ∃ vs, readModel files = .ok vs ∧ ∀ (s e : Nat) (seq : List Nat), s < 2 ^ 32 → (∀ x ∈ seq, x < 2 ^ 32) →
      (files.length ≤ seq.length + 1 → seq.length ≠ files.length →
        ScoresAfter files (lastWords (files.length - 1) seq) (LangModel.next ⟨vs, files.length, s, e⟩ seq)) ∧
      (seq.length + 1 < files.length →
        ScoresAfter files (s :: seq) (LangModel.next ⟨vs, files.length, s, e⟩ seq)) := by
  obtain ⟨vs, ctx, h1, L⟩ := readModel_ok hC.toGoodFiles (by intro h; rw [h] at hn; simp at hn)
  refine ⟨vs, h1, fun s e seq hs hx => ⟨?_, ?_⟩⟩
  · intro h2 h3
    have : LangModel.nextContext ⟨vs, files.length, s, e⟩ seq = lastWords (files.length - 1) seq := by
      unfold LangModel.nextContext lastWords
      simp only
      rw [if_neg (by omega)]
      split
      · congr 1; omega
      · have : seq.length - (files.length - 1) = 0 := by omega
        rw [this]; rfl
    unfold LangModel.next
    rw [this]
    apply modelNext_scoresAfter hC L
    · intro h0
      have := congrArg List.length h0
      simp [lastWords] at this; omega
    · simp [lastWords]; omega
    · exact fun x hx' => hx x (List.mem_of_mem_drop hx')
  · intro h2
    have : LangModel.nextContext ⟨vs, files.length, s, e⟩ seq = s :: seq := by
      unfold LangModel.nextContext
      simp only
      rw [if_pos h2]
    unfold LangModel.next
    rw [this]
    apply modelNext_scoresAfter hC L (by simp) (by simp; omega)
    intro x hx'
    rcases List.mem_cons.1 hx' with rfl | h
    · exact hs
    · exact hx x h

/-- The hypotheses are met: order 3, the sequence 1 2 (length order-1). -/
example : CorpusFiles twoSentences ∧ 2 ≤ twoSentences.length ∧ twoSentences.length ≤ [1, 2].length + 1 :=
  ⟨twoSentences_corpus, by decide, by decide⟩

/-- The bigram files of "1 2" and "2 3", order 2. -/
def bigramFiles : List (List (List Nat × Nat)) := [[([1], 1), ([2], 2), ([3], 1)], [([1, 2], 1), ([2, 3], 1)]]

/-- C45 is false for sequences of exactly `order` words: with order 2, Next(1 2) scores the continuations of the word 1, so
the word 3, which follows the last word 2 half of the time, is unknown, and 2 is certain. -/
theorem C45_equal_length_wrong : ∃ vs s, readModel bigramFiles = .ok vs ∧
    LangModel.next ⟨vs, 2, 0, 0⟩ [1, 2] = .ok (some s) ∧
    gramCount bigramFiles [2, 3] = 1 ∧ gramCount bigramFiles [2] = 2 ∧ s.score 3 = .ok .unknown ∧
    gramCount bigramFiles [2, 2] = 0 ∧ s.score 2 = .ok (.ratio 0 1 1) := by
  refine ⟨[createPackedArray [(pack invalidContext 1, 1), (pack invalidContext 2, 2), (pack invalidContext 3, 1)],
    createPackedArray [(pack 0 2, 1), (pack 1 3, 1)]], ⟨[1], 0, ⟨[pack 0 0, pack 1 1], [pack 2 1, pack 3 1], 2⟩⟩, ?_, ?_, ?_⟩
  · decide +kernel
  · decide +kernel
  · decide +kernel

/-- For sequences of exactly `order` words the context is made of the first order-1 words, whatever comes last. -/
theorem C45_equal_length_ignores_last {files : List (List (List Nat × Nat))} (hC : CorpusFiles files) (hn : 2 ≤ files.length) :
    ∃ vs, readModel files = .ok vs ∧ ∀ (s e : Nat) (seq : List Nat), (∀ x ∈ seq, x < 2 ^ 32) → seq.length = files.length →
      ScoresAfter files seq.dropLast (LangModel.next ⟨vs, files.length, s, e⟩ seq) := by
  obtain ⟨vs, ctx, h1, L⟩ := readModel_ok hC.toGoodFiles (by intro h; rw [h] at hn; simp at hn)
  refine ⟨vs, h1, fun s e seq hx hl => ?_⟩
  have : LangModel.nextContext ⟨vs, files.length, s, e⟩ seq = seq.dropLast := by
    unfold LangModel.nextContext
    simp only
    rw [if_neg (by omega), if_neg (by omega), if_pos hl, List.dropLast_eq_take, hl]
  unfold LangModel.next
  rw [this]
  apply modelNext_scoresAfter hC L
  · intro h0
    have := congrArg List.length h0
    simp at this; omega
  · simp; omega
  · exact fun x hx' => hx x (List.dropLast_subset _ hx')

/-- With order 1, Next fails on every sequence. -/
theorem C45_order_one (v : PackedArray) (s e : Nat) (seq : List Nat) : ∃ msg, LangModel.next ⟨[v], 1, s, e⟩ seq = .error (.other msg) := by
  refine ⟨"nGrams length should be less than the nGramModel order", ?_⟩
  unfold LangModel.next modelNext
  rw [if_pos]
  unfold LangModel.nextContext
  simp only
  rw [if_neg (by omega)]
  split
  · right; rw [List.length_drop]; omega
  · split
    · right; rw [List.length_take]; omega
    · right; omega

/-! ### C61 -/

/-- All windows of `n` consecutive elements, from left to right. -/
def windows (n : Nat) (s : List Nat) : List (List Nat) := s.tails.filterMap fun t => if n ≤ t.length then some (t.take n) else none

theorem split_windows (s : List Nat) (n : Nat) (hn : 1 ≤ n) : splitIntoNGrams s n = windows n s := by
  unfold windows
  induction s with
  | nil => unfold splitIntoNGrams; rw [if_pos (by simp; omega)]; simp; omega
  | cons x s ih =>
    rw [List.tails_cons, List.filterMap_cons]
    by_cases h : n ≤ (x :: s).length
    · rw [if_pos h]
      simp only
      rw [← ih]
      unfold splitIntoNGrams
      rw [if_neg (by omega)]
      simp only [List.length_cons] at h ⊢
      by_cases h2 : s.length < n
      · rw [if_pos h2]
        have : s.length + 1 - n + 1 = 1 := by omega
        rw [this]; simp
      · rw [if_neg h2]
        have : s.length + 1 - n + 1 = (s.length - n + 1) + 1 := by omega
        rw [this, List.range_succ_eq_map, List.map_cons, List.map_map]
        rfl
    · rw [if_neg h]
      simp only
      rw [← ih]
      unfold splitIntoNGrams
      rw [if_pos (by omega), if_pos (by simp at h; omega)]

theorem foldr_scores (f : List Nat → LMScore) (vs : List PackedArray) (l : List (List Nat)) (h : ∀ g ∈ l, modelScore vs g = .ok (f g)) :
    l.foldr (fun g (acc : Except Err (List LMScore)) =>
      match modelScore vs g with
      | .error e => .error e
      | .ok s =>
        match acc with
        | .error e => .error e
        | .ok l => .ok (s :: l)) (.ok []) = .ok (l.map f) := by
  induction l with
  | nil => rfl
  | cons g l ih =>
    rw [List.foldr_cons, ih fun g hg => h g (by simp [hg]), h g (by simp)]
    rfl

/-- C61: the score of a sentence is the sum of the scores of all windows of `order` consecutive words of the sentence
between the start and the end symbol (the list of summands is given), and scoring never fails. -/
theorem C61_sentence {files : List (List (List Nat × Nat))} (hC : CorpusFiles files) (hne : files ≠ []) :
    ∃ vs, readModel files = .ok vs ∧ ∃ f : List Nat → LMScore,
      (∀ g, g.length = files.length → (∀ x ∈ g, x < 2 ^ 32) → modelScore vs g = .ok (f g)) ∧
      ∀ (s e : Nat) (sentence : List Nat), s < 2 ^ 32 → e < 2 ^ 32 → (∀ x ∈ sentence, x < 2 ^ 32) →
        LangModel.sentenceScores ⟨vs, files.length, s, e⟩ sentence =
          .ok ((windows files.length (s :: (sentence ++ [e]))).map f) := by
  obtain ⟨vs, ctx, h1, L⟩ := readModel_ok hC.toGoodFiles hne
  have hpos : 0 < files.length := List.length_pos_of_ne_nil hne
  refine ⟨vs, h1, fun g => match modelScore vs g with | .ok s => s | .error _ => .unknown, ?_, ?_⟩
  · intro g hg hx
    simp only [modelScore_eq L hx]
  · intro s e sentence hs he hx
    unfold LangModel.sentenceScores LangModel.wrap
    rw [split_windows _ _ hpos]
    apply foldr_scores
    intro g hg
    have hgx : ∀ x ∈ g, x < 2 ^ 32 := by
      intro x hxg
      obtain ⟨t, ht, hte⟩ := List.mem_filterMap.1 hg
      split at hte
      · injection hte with hte
        subst hte
        have hm := (List.mem_tails _ _).1 ht |>.subset (List.mem_of_mem_take hxg)
        simp at hm
        rcases hm with rfl | hm | rfl
        · exact hs
        · exact hx x hm
        · exact he
      · cases hte
    simp only [modelScore_eq L hgx]

/-- A sentence of fewer than order-2 words has no window: every such sentence, probable or not, scores 0 (the maximum). -/
theorem C61_short_sentence_zero (m : LangModel) (sentence : List Nat) (h : sentence.length + 2 < m.order) :
    m.sentenceScores sentence = .ok [] := by
  unfold LangModel.sentenceScores splitIntoNGrams LangModel.wrap
  rw [if_pos (by simp; omega)]
  rfl

example : CorpusFiles twoSentences ∧ windows 3 (0 :: ([1, 2] ++ [5])) = [[0, 1, 2], [1, 2, 5]] := ⟨twoSentences_corpus, by decide⟩

end Verif.Props
