import Verif.Props.WordSearch
/-
C67, C68: what the service answers to a query or a prefix with characters outside the alphabet, when its n-grams become equal
(see `Faithful`).
-/
namespace Verif.Props
open Verif Spec Verif.WordSearch

/-! ### A query with characters outside the alphabet -/

theorem odd_word : tinySpec.Faithful (tinySpec.wordText "!!ab".toList) := by unfold WordConf.Faithful; decide +kernel

/-- The tokens of the query "!!?!". -/
theorem odd_query : suggestTokenizer asciiLower id tinyConf (utf8 "!!?!".toList) = .ok (List.replicate 4 (utf8 "$$$".toList)) := by
  unfold suggestTokenizer wrapTokenize filterTokenize
  rw [tiny_describes.start, tiny_describes.fin, ← utf8_append, ← utf8_append, toLowerText_utf8 tinySpec.lower asciiLower tiny_describes.lower,
    trimSpaces_utf8, tiny_describes.size, nGramTokenize_utf8 (by decide) (by decide)]
  have e1 : trim ' ' ((tinySpec.before ++ "!!?!".toList ++ tinySpec.behind).map tinySpec.lower) = "$!!?!$".toList := by decide +kernel
  rw [e1, if_neg (by decide +kernel), if_neg (by decide +kernel)]
  have e2 : ((windows tinySpec.n "$!!?!$".toList).map utf8).eraseDups =
      ["$!!".toList, "!!?".toList, "!?!".toList, "?!$".toList].map utf8 := by decide +kernel
  rw [e2]
  show Except.ok _ = _
  congr 1
  unfold normalizeFilter
  rw [List.map_map]
  have : (normalizeToken (Alphabet.create id tinyConf.alphabet) tinyConf.pad) ∘ utf8 = fun t => utf8 (tinySpec.normal t) :=
    funext fun t => normalizeToken_utf8 tiny_describes t
  rw [this]
  decide +kernel

/-- The header of the index of the word "!!ab". -/
def oddHeader : Header := ⟨indexVersion, 5, [⟨"$$$", 4, 1, 0, 1⟩, ⟨"$$a", 4, 1, 1, 1⟩, ⟨"$ab", 4, 1, 2, 1⟩, ⟨"ab$", 4, 1, 3, 1⟩]⟩

theorem odd_data : indexData toyRoaring (fun _ m => m) (suggestTokenizer asciiLower id tinyConf) (ramDict [utf8 "!!ab".toList]) =
    .ok ([0, 0, 0, 0], oddHeader) := by
  have := indexData_words (ρ := toyRoaring) (order := fun _ m => m) tiny_describes (words := ["!!ab".toList])
    (by intro w hw; rw [List.mem_singleton.1 hw]; exact odd_word)
  simp only [List.map_cons, List.map_nil] at this
  rw [this]
  decide +kernel

/-- The table of the documents with four terms. -/
def oddTable : Table := fun x =>
  if x = "ab$" then some ⟨1, 3, 1⟩ else if x = "$ab" then some ⟨1, 2, 1⟩ else if x = "$$a" then some ⟨1, 1, 1⟩ else
  if x = "$$$" then some ⟨1, 0, 1⟩ else none

/-- The opened index. -/
def oddOpen : OpenIndex := ⟨⟨[0, 0, 0, 0], 0⟩, [none, none, none, none, some oddTable]⟩

theorem odd_built {G : Gob} (LG : G.Lawful) (name : String) :
    buildRAM toyRoaring G (fun _ m => m) (fun b => [b]) (fun b => [b]) name (suggestTokenizer asciiLower id tinyConf)
      (ramDict [utf8 "!!ab".toList]) = .ok oddOpen := by
  unfold buildRAM
  rw [odd_data]
  obtain ⟨f1, f2⟩ := commitRAM_files (writerConfig_ne name) (fun _ => none) [[0, 0, 0, 0]] [G.encode oddHeader]
  exact readIndex_ok LG (h := oddHeader) (rest := []) (by unfold openRAM; rw [f2]; simp) rfl (by unfold openRAM; rw [f1]; simp)
    rfl

/-- The call of `Suggest` for "!!?!" with similarity 1, Jaccard, top 5. -/
def oddCall : SConf ℚ (Nat → SkipList) := suggestCall (f64Ops 0) (jaccardMetric (f64Ops 0)) toyRoaring id oddOpen
    (List.replicate 4 ("$$$")) 1 5

/-- An empty queue. -/
def oddQ0 : TopKQueue ℚ := ⟨5, fun _ => ⟨0, default⟩, 0⟩

/-- The pooled objects do not matter. -/
def oddStale : Nat → SkipList := fun _ => ⟨⟨[], 0⟩, 0, 0, 0, 0, 0, 0, false⟩

/-- The search of the only worker. -/
def oddSearch : TopKQueue ℚ × Option Err :=
  search toyRoaring (cpMerge (fuzzyCollect (oddCall.score 4)) id) oddOpen.docs oddStale oddTable
    (List.replicate 4 ("$$$")) (oddCall.thr 1 4) oddQ0

/-- The queue after the worker has delivered its results. -/
def oddQueue : TopKQueue ℚ := match oddQ0.merge oddSearch.1 with | .ok q => q | .error _ => oddQ0

theorem odd_returns : SuggestReturns oddCall (.ok [⟨0, 1⟩]) := by
  have b1 : oddCall.bMin = 4 := by decide +kernel
  have b2 : oddCall.bMax = 4 := by decide +kernel
  have hsend : sendLoop 4 4 4 5 = [4] := by decide +kernel
  let s0 : SState ℚ := ⟨[4], false, [], 1, 1, oddQ0, false, [.idle], none⟩
  have hstart : oddCall.start = .ok s0 := by
    unfold SConf.start
    rw [b1, b2]
    have e : oddCall.sizeA = 4 := rfl
    rw [e]
    simp only [show ¬ ((4 : Int) - 4 + 1 < 0) by decide, if_false]
    rw [show (((4 : Nat) : Int) + 1) = 5 from rfl, show ((4 : Nat) : Int) = 4 from rfl, hsend]
    rfl
  have hmerge : oddQ0.merge oddSearch.1 = .ok oddQueue := by
    have : (match oddQ0.merge oddSearch.1 with | .ok _ => true | .error _ => false) = true := by decide +kernel
    unfold oddQueue
    cases hm : oddQ0.merge oddSearch.1 with
    | ok q => rfl
    | error e => rw [hm] at this; cases this
  have hthr : oddCall.thr 1 4 = 4 := by decide +kernel
  have hns : ¬ oddCall.skips 1 4 := by
    unfold SConf.skips
    rw [hthr]
    rintro (h | h | h | h)
    · cases h
    · omega
    · have : oddCall.sizeA = 4 := rfl
      rw [this] at h; omega
    · have : oddCall.indices.get 4 = some fun env collect T k =>
        search toyRoaring (cpMerge collect id) oddOpen.docs env oddTable (List.replicate 4 ("$$$")) T k := rfl
      rw [this] at h; cases h
  have r0 : oddCall.Reachable s0 := .start hstart
  have r1 := r0.step (.send (b := 4) (rest := []) rfl rfl (by decide))
  have r2 := r1.step (.close rfl rfl rfl)
  have r3 := r2.step (.recv (b := 4) (rest := []) (i := 0) rfl rfl rfl)
  have r4 := r3.step (.load (b := 4) (i := 0) rfl rfl)
  have r5 := r4.step (.search (b := 4) (a := 1) (i := 0) (q0 := oddQ0) (q' := oddSearch.1)
    (f := fun env collect T k => search toyRoaring (cpMerge collect id) oddOpen.docs env oddTable
      (List.replicate 4 ("$$$")) T k) oddStale rfl rfl hns rfl rfl
    (Prod.ext rfl (show oddSearch.2 = none by decide +kernel)))
  have r6 := r5.step (.commit (b := 4) (q := oddSearch.1) (g := oddQueue) (i := 0) rfl rfl rfl hmerge)
  have r7 := r6.step (.raise (i := 0) rfl rfl)
  have r8 := r7.step (.unlock (i := 0) rfl rfl)
  have r9 := r8.step (.exit (i := 0) rfl rfl rfl rfl)
  have hres : oddQueue.getCandidates.1 = [⟨0, 1⟩] := by decide +kernel
  have := SuggestReturns.run (c := oddCall) (by decide) r9 ⟨rfl, rfl, by
    intro w hw
    rw [show w = .done none by simpa [s0] using hw]
    exact ⟨none, rfl⟩⟩
  rw [← hres]
  exact this


/-- **C67** is false for queries whose n-grams are not distinct after the replacement of characters outside the alphabet, even
if those of the words are: the service reports the word "!!ab" as exactly similar (1) to the query "!!?!", because the four
n-grams of the query all became "$$$" and each is counted as shared. The two have one n-gram in common, of four. -/
theorem C67_repeated_query {G : Gob} (LG : G.Lawful) (name : String) :
    tinySpec.Faithful (tinySpec.wordText "!!ab".toList) ∧
    (∃ (ρ : Roaring) (_ : ρ.Lawful) (oi : OpenIndex),
      buildRAM ρ G (fun _ m => m) (fun b => [b]) (fun b => [b]) name (suggestTokenizer asciiLower id tinyConf)
        (ramDict [utf8 "!!ab".toList]) = .ok oi ∧
      ServiceSuggest (f64Ops 0) (jaccardMetric (f64Ops 0)) ρ id (suggestTokenizer asciiLower id tinyConf) oi
        (ramDict [utf8 "!!ab".toList]) (utf8 "!!?!".toList) 1 5 (.ok [(1, utf8 "!!ab".toList)])) ∧
    tinySpec.wordSim jaccardSim "!!?!".toList "!!ab".toList = 1 / 4 := by
  refine ⟨odd_word, ⟨toyRoaring, toyLawful, oddOpen, odd_built LG name, .inr ⟨_, .ok [⟨0, 1⟩], odd_query, ?_, ?_⟩⟩, ?_⟩
  · rw [List.map_replicate]; exact odd_returns
  · rw [answer_ok]; rfl
  · have h1 : (tinySpec.grams (tinySpec.wordText "!!?!".toList)).length = 1 := by decide +kernel
    have h2 : (tinySpec.grams (tinySpec.wordText "!!ab".toList)).length = 4 := by decide +kernel
    have h3 : ((tinySpec.grams (tinySpec.wordText "!!?!".toList)).filter
        (· ∈ tinySpec.grams (tinySpec.wordText "!!ab".toList))).length = 1 := by decide +kernel
    simp only [WordConf.wordSim, h1, h2, h3]
    norm_num [jaccardSim]

/-! ### Any prefix -/

section
variable {lower : Nat → Nat} {sort : List Alphabet → List Alphabet} {d : TokenConf} {c : WordConf}

/-- The tokens of any prefix. -/
theorem autocompleteTokens_any (h : Describes lower sort d c) {w : List Char} (hlen : c.n ≤ (c.prefixText w).length) :
    autocompleteTokenizer lower sort d (utf8 w) = .ok ((windows c.n (c.prefixText w)).eraseDups.map fun x => utf8 (c.normal x)) := by
  unfold autocompleteTokenizer wrapTokenize filterTokenize
  rw [h.start, List.append_nil, ← utf8_append, toLowerText_utf8 c.lower lower h.lower, trimSpaces_utf8]
  show Except.map _ (nGramTokenize d.nGramSize (utf8 (c.prefixText w))) = _
  rw [h.size, nGramTokenize_utf8 h.pos h.le]
  have hge := utf8_length_ge (c.prefixText w)
  rw [if_neg (by omega), if_neg (by omega), map_eraseDups utf8 _ _ (Nat.le_refl _) (fun x _ y _ e => utf8_injective e)]
  show Except.ok _ = _
  congr 1
  unfold normalizeFilter
  rw [List.map_map]
  apply List.map_congr_left
  intro x _
  exact normalizeToken_utf8 h x

variable {ρ : Roaring} (L : ρ.Lawful) {G : Gob} (LG : G.Lawful) (hdc : Describes lower sort d c)
  {words : List (List Char)} (hwords : words.length < 2 ^ 32) (hfaith : ∀ w ∈ words, c.Faithful (c.wordText w))
  (hfirst : ∀ w, words.head? = some w → c.grams (c.wordText w) ≠ [])
  (hn : ∀ w ∈ words, (c.grams (c.wordText w)).length ≤ 65535) {oi : OpenIndex} (hoi : WordIndex ρ G lower sort d words oi)
  {msort : List (PList ρ) → List (PList ρ)} (hs : ∀ r, (msort r).Perm r) {query : List Char}

include L LG hdc hwords hfaith hfirst hn hoi hs in
/-- **C68** The answer to any prefix that has an n-gram, also if its n-grams become equal when characters outside the alphabet
are replaced: the first `limit` words among those that contain all its n-grams *and* have at least as many n-grams as the
prefix has before the replacement. -/
theorem C68_any_prefix (hlen : c.n ≤ (c.prefixText query).length)
    (hq : (windows c.n (c.prefixText query)).eraseDups.length ≤ 65535) {limit : Nat} {r : Except Err (List (ℚ × List UInt8))}
    (hr : ServiceAutocomplete ρ msort (autocompleteTokenizer lower sort d) oi (ramDict (words.map utf8)) (utf8 query) limit r) :
    r = .ok (((words.filter fun w => c.matchesPrefix query w &&
      decide ((windows c.n (c.prefixText query)).eraseDups.length ≤ (c.grams (c.wordText w)).length)).take limit).map fun w => (0, utf8 w)) := by
  rcases hr with ⟨e, he, _⟩ | ⟨q, cs, he, hret, rfl⟩
  · rw [autocompleteTokens_any hdc hlen] at he; cases he
  rw [autocompleteTokens_any hdc hlen] at he
  simp only [Except.ok.injEq] at he
  subst he
  have hgd : GoodDocs (wordDocs c words) := wordDocs_good hwords fun w hw => by have := hn w hw; omega
  rw [List.map_map] at hret
  have hne : (windows c.n (c.prefixText query)).eraseDups ≠ [] := by
    intro h0
    have h1 : windows c.n (c.prefixText query) ≠ [] := by
      have : (windows c.n (c.prefixText query)).length = (c.prefixText query).length - c.n + 1 := by simp [windows]
      intro h; rw [h] at this; simp at this
    obtain ⟨x, hx⟩ := List.exists_mem_of_ne_nil _ h1
    have := List.mem_eraseDups.2 hx
    rw [h0] at this
    cases this
  have key := C33_any_tokens L LG hgd (wordDocs_first (c := c) hfirst) (wordIndex_indexOf hdc hfaith hoi) hs
    (q := (windows c.n (c.prefixText query)).eraseDups.map (goString ∘ fun x => utf8 (c.normal x))) (.of_short (by simpa using hq))
    (by simpa using hne) hret
  subst key
  rw [answer_ok]
  simp only [Except.map, List.map_map, Except.ok.injEq]
  have hmem : ∀ (k : Nat) (w : List Char),
      (decide ((∀ t ∈ (windows c.n (c.prefixText query)).eraseDups.map (goString ∘ fun x => utf8 (c.normal x)), t ∈ (wordDoc c k w).terms) ∧
        ((windows c.n (c.prefixText query)).eraseDups.map (goString ∘ fun x => utf8 (c.normal x))).length ≤ (wordDoc c k w).terms.length)) =
      (c.matchesPrefix query w && decide ((windows c.n (c.prefixText query)).eraseDups.length ≤ (c.grams (c.wordText w)).length)) := by
    intro k w
    rw [Bool.eq_iff_iff, Bool.and_eq_true, decide_eq_true_eq, decide_eq_true_eq, List.length_map]
    refine and_congr ?_ (by simp [wordDoc])
    unfold WordConf.matchesPrefix WordConf.grams
    rw [if_neg (by omega), List.all_eq_true]
    constructor
    · intro h x hx
      rw [List.mem_eraseDups] at hx
      obtain ⟨y, hy, rfl⟩ := List.mem_map.1 hx
      have h1 := h _ (List.mem_map.2 ⟨y, List.mem_eraseDups.2 hy, rfl⟩)
      obtain ⟨z, hz, e⟩ := List.mem_map.1 (show term (c.normal y) ∈ (c.grams (c.wordText w)).map term from h1)
      rw [decide_eq_true_eq, ← term_inj e]
      exact hz
    · intro h t ht
      obtain ⟨y, hy, rfl⟩ := List.mem_map.1 ht
      have h1 := h (c.normal y) (List.mem_eraseDups.2 (List.mem_map.2 ⟨y, List.mem_eraseDups.1 hy, rfl⟩))
      rw [decide_eq_true_eq] at h1
      exact List.mem_map.2 ⟨_, h1, rfl⟩
  unfold wordDocs
  rw [List.filter_map, ← List.map_take, List.map_map]
  have hfil : (words.zipIdx.filter ((fun x : Doc =>
      decide ((∀ t ∈ (windows c.n (c.prefixText query)).eraseDups.map (goString ∘ fun x => utf8 (c.normal x)), t ∈ x.terms) ∧
        ((windows c.n (c.prefixText query)).eraseDups.map (goString ∘ fun x => utf8 (c.normal x))).length ≤ x.terms.length)) ∘
        fun wi => wordDoc c wi.2 wi.1)) = words.zipIdx.filter fun wi => c.matchesPrefix query wi.1 &&
          decide ((windows c.n (c.prefixText query)).eraseDups.length ≤ (c.grams (c.wordText wi.1)).length) := by
    apply List.filter_congr
    intro wi _
    exact hmem wi.2 wi.1
  rw [hfil]
  have hw : (words.filter fun w => c.matchesPrefix query w &&
      decide ((windows c.n (c.prefixText query)).eraseDups.length ≤ (c.grams (c.wordText w)).length)) =
      (words.zipIdx.filter fun wi => c.matchesPrefix query wi.1 &&
        decide ((windows c.n (c.prefixText query)).eraseDups.length ≤ (c.grams (c.wordText wi.1)).length)).map Prod.fst := by
    have e : words = words.zipIdx.map Prod.fst := by simp
    conv_lhs => rw [e]
    rw [List.filter_map]
    rfl
  rw [hw, ← List.map_take, List.map_map]
  apply List.map_congr_left
  intro wi hwi
  have h2 := (List.mem_filter.1 (List.mem_of_mem_take hwi)).1
  rw [List.mem_zipIdx_iff_getElem?] at h2
  simp only [Function.comp_apply, Prod.mk.injEq, true_and]
  exact dict_get h2

include L LG hdc hwords hfaith hfirst hn hoi hs in
/-- **C68** … and there is an answer, for any prefix. -/
theorem C68_any_answers (hlen : c.n ≤ (c.prefixText query).length)
    (hq : (windows c.n (c.prefixText query)).eraseDups.length ≤ 65535) (limit : Nat) :
    ∃ q, autocompleteTokenizer lower sort d (utf8 query) = .ok q ∧
      ¬ AutocompletePanics (autocompleteCall ρ msort oi (q.map goString) limit) ∧
      ¬ AutocompleteBlocks (autocompleteCall ρ msort oi (q.map goString) limit) ∧
      (∀ f : Nat → AState (List MergeCandidate) ℚ, ¬ ∀ i, (autocompleteCall ρ msort oi (q.map goString) limit).Step (f i) (f (i + 1))) ∧
      ∃ r, ServiceAutocomplete ρ msort (autocompleteTokenizer lower sort d) oi (ramDict (words.map utf8)) (utf8 query) limit r := by
  have htok := autocompleteTokens_any hdc hlen (w := query)
  refine ⟨_, htok, ?_⟩
  have hgd : GoodDocs (wordDocs c words) := wordDocs_good hwords fun w hw => by have := hn w hw; omega
  have hne : (windows c.n (c.prefixText query)).eraseDups ≠ [] := by
    intro h0
    have h1 : windows c.n (c.prefixText query) ≠ [] := by
      have : (windows c.n (c.prefixText query)).length = (c.prefixText query).length - c.n + 1 := by simp [windows]
      intro h; rw [h] at this; simp at this
    obtain ⟨x, hx⟩ := List.exists_mem_of_ne_nil _ h1
    have := List.mem_eraseDups.2 hx
    rw [h0] at this
    cases this
  obtain ⟨k1, k2, k3, cs, hcs⟩ := C33_terminates L LG hgd (wordDocs_first (c := c) hfirst) (wordIndex_indexOf hdc hfaith hoi) hs
    (q := ((windows c.n (c.prefixText query)).eraseDups.map fun x => utf8 (c.normal x)).map goString) (.of_short (by simpa using hq))
    (by simpa using hne) (limit := limit)
  exact ⟨k1, k2, k3, _, .inr ⟨_, cs, htok, hcs, rfl⟩⟩

end

/-- The prefix "!?" has the trigrams "$!?" only; "!?!" has two that both become "$$$": the word "!!ab" has "$$$" and four trigrams … -/
example : ¬ tinySpec.Faithful (tinySpec.prefixText "!?!".toList) ∧ tinySpec.n ≤ (tinySpec.prefixText "!?!".toList).length ∧
    (windows tinySpec.n (tinySpec.prefixText "!?!".toList)).eraseDups.length = 2 ∧
    tinySpec.matchesPrefix "!?!".toList "!!ab".toList = true ∧ (tinySpec.grams (tinySpec.wordText "!!ab".toList)).length = 4 ∧
    (windows tinySpec.n (tinySpec.prefixText "!?!!??".toList)).eraseDups.length = 5 ∧
    tinySpec.matchesPrefix "!?!!??".toList "!!ab".toList = true := by
  unfold WordConf.Faithful; decide +kernel

end Verif.Props
