import Verif.Props.ServeExamples
/-
C30, C94: exactly which requests for a search the suggest server answers, which hang and which are aborted.
-/
namespace Verif.Props
open Verif Spec Verif.WordSearch Verif.Serve Verif.Wire

section
variable {ρ : Roaring} (L : ρ.Lawful) {G : Gob} (LG : G.Lawful) {docs : List Doc} (hd : GoodDocs docs)
  (hf : FirstNonempty docs) {oi : OpenIndex} (hoi : IndexOf ρ G docs oi)
  {sort : List (PList ρ) → List (PList ρ)} {q : List String}

include L LG hd hf hoi in
/-- Under the conditions of `C30_blocks` no other outcome is possible. -/
theorem blocks_only {S : Type} [LinearOrder S] [Inhabited S] (F : FloatOps S) {α : S} {M : Metric S} {K : Nat}
    {m : Nat} (hle : ∀ d ∈ docs, d.terms.length ≤ m) (hm : ∃ d ∈ docs, d.terms.length = m)
    (h1 : M.minY α q.length = m + 1) (h2 : m < M.maxY α q.length) (h3 : M.minY α q.length ≤ q.length) {s : SState S}
    (hr : (suggestCall F M ρ sort oi q α K).Reachable s) : s.panicked = none ∧ ¬ s.final ∧
      ∃ s0, (suggestCall F M ρ sort oi q α K).start = .ok s0 := by
  have hsize : oi.size = m + 1 := by
    rw [(hoi.ok L LG hd hf).size]
    obtain ⟨d, hdm, he⟩ := hm
    have := le_maxCard hdm
    have := maxCard_le (docs := docs) (n := m + 1) (fun d h => by have := hle d h; omega)
    omega
  obtain ⟨c, hc⟩ : ∃ c, c = suggestCall F M ρ sort oi q α K := ⟨_, rfl⟩
  rw [← hc] at hr ⊢
  have e1 : c.bMin = m + 1 := by rw [hc]; exact h1
  have e2 : c.bMax = m := by
    have : c.bMax = if M.maxY α q.length ≥ oi.size then (oi.size : Int) - 1 else M.maxY α q.length := by rw [hc]; rfl
    rw [this, hsize, if_pos (by push_cast; omega)]; push_cast; omega
  have e3 : c.sizeA = q.length := by rw [hc]; rfl
  obtain ⟨q0, e0⟩ := TopKQueue.new_ok (S := S) K
  have e4 : TopKQueue.new c.topK = .ok q0 := by rw [hc]; exact e0
  have hsend : sendLoop c.bMin c.bMax c.sizeA (c.sizeA + 1) ≠ [] := by
    intro h
    have : (q.length : Int) ∈ sendLoop c.bMin c.bMax c.sizeA (c.sizeA + 1) := by
      rw [mem_sendLoop]; left; rw [e1, e3]; omega
    rw [h] at this; simp at this
  have hst : c.start = .ok ⟨sendLoop c.bMin c.bMax c.sizeA (c.sizeA + 1), false, [], 0, c.similarity, q0, false, [], none⟩ := by
    unfold SConf.start
    rw [e4, e1, e2, if_neg (by omega)]
    simp
  have hs : s = ⟨sendLoop c.bMin c.bMax c.sizeA (c.sizeA + 1), false, [], 0, c.similarity, q0, false, [], none⟩ := by
    induction hr with
    | start h => rw [hst] at h; exact (Except.ok.inj h).symm
    | step _ h ih =>
      exfalso
      subst ih
      generalize sendLoop c.bMin c.bMax c.sizeA (c.sizeA + 1) = l at hsend h
      cases h <;> simp_all
  rw [hs]
  exact ⟨rfl, fun h => by simp [SState.final] at h, _, hst⟩

variable (hq0 : q ≠ []) (hne : docs ≠ [])

include L LG hd hf hoi hq0 hne in
/-- The three outcomes, for any arithmetic and metric for which calls return when some document is long enough. -/
theorem fates_of {S : Type} [LinearOrder S] [Inhabited S] (F : FloatOps S) {α : S} {M : Metric S} {K : Nat}
    (hmn : M.minY α q.length ≤ q.length) (hmx : M.minY α q.length ≤ M.maxY α q.length)
    (hA : (∃ d ∈ docs, M.minY α q.length ≤ d.terms.length) → ¬ SuggestPanics (suggestCall F M ρ sort oi q α K) ∧
      ¬ SuggestBlocks (suggestCall F M ρ sort oi q α K) ∧ ∃ r, SuggestReturns (suggestCall F M ρ sort oi q α K) r) :
    let c := suggestCall F M ρ sort oi q α K
    let need := M.minY α q.length
    ((∃ r, SuggestReturns c r) ↔ ∃ d ∈ docs, need ≤ d.terms.length) ∧
    (SuggestBlocks c ↔ (∃ d ∈ docs, (d.terms.length : Int) + 1 = need) ∧ ∀ d ∈ docs, (d.terms.length : Int) < need) ∧
    (SuggestPanics c ↔ ∀ d ∈ docs, (d.terms.length : Int) + 1 < need) ∧
    (∀ s, c.Reachable s → s.panicked = none) := by
  intro c need
  have hlen : 1 ≤ q.length := List.length_pos_iff.2 hq0
  have hB : ((∃ d ∈ docs, (d.terms.length : Int) + 1 = need) ∧ ∀ d ∈ docs, (d.terms.length : Int) < need) →
      ¬ SuggestPanics c ∧ SuggestBlocks c ∧ ¬ ∃ r, SuggestReturns c r := by
    rintro ⟨⟨x, hx, he⟩, hall⟩
    have a1 : ∀ d ∈ docs, d.terms.length ≤ x.terms.length := fun d h => by have := hall d h; omega
    have hb := C30_blocks (sort := sort) L LG hd hf hoi F (α := α) (M := M) (K := K) (q := q) hq0 a1 ⟨x, hx, rfl⟩
      (show need = _ by omega) (by omega) hmn
    have ho := fun s => blocks_only (sort := sort) L LG hd hf hoi F (α := α) (M := M) (K := K) (q := q) a1 ⟨x, hx, rfl⟩
      (show need = _ by omega) (by omega) hmn (s := s)
    refine ⟨?_, hb, ?_⟩
    · intro hp
      cases hp with
      | start _ h =>
        obtain ⟨_, s, hr, _⟩ := hb
        obtain ⟨_, _, s0, e⟩ := ho s hr
        rw [e] at h; cases h
      | run _ hr hp => exact hp (ho _ hr).1
    · rintro ⟨r, hr⟩
      cases hr with
      | empty h => exact absurd h (by show q.length ≠ 0; omega)
      | run _ hr hfin => exact (ho _ hr).2.1 hfin
  have hC : (∀ d ∈ docs, (d.terms.length : Int) + 1 < need) → SuggestPanics c ∧ (∃ e, c.start = .error e) ∧ ∀ s, ¬ c.Reachable s := by
    intro h
    have hp := C30_panics (sort := sort) L LG hd hf hoi F (α := α) (M := M) (K := K) (q := q) hq0 h hne
    have hst : ∃ e, c.start = .error e := by
      have hsize : (oi.size : Int) < need := by
        rw [(hoi.ok L LG hd hf).size]
        obtain ⟨d, hdm⟩ := List.exists_mem_of_ne_nil _ hne
        have h2 := h d hdm
        have h3 := maxCard_le (docs := docs) (n := (need - 1).toNat) (fun d h' => by have := h d h'; omega)
        omega
      refine ⟨.panicMake, ?_⟩
      unfold SConf.start
      rw [if_pos]
      show (if M.maxY α q.length ≥ oi.size then (oi.size : Int) - 1 else M.maxY α q.length) - need + 1 < 0
      split <;> omega
    refine ⟨hp, hst, fun s hr => ?_⟩
    obtain ⟨e, he⟩ := hst
    induction hr with
    | start h => rw [he] at h; cases h
    | step _ _ ih => exact ih
  have htri : (∃ d ∈ docs, need ≤ d.terms.length) ∨ ((∃ d ∈ docs, (d.terms.length : Int) + 1 = need) ∧ ∀ d ∈ docs, (d.terms.length : Int) < need) ∨
      ∀ d ∈ docs, (d.terms.length : Int) + 1 < need := by
    by_cases h : ∃ d ∈ docs, need ≤ d.terms.length
    · exact .inl h
    · push Not at h
      by_cases h' : ∃ d ∈ docs, (d.terms.length : Int) + 1 = need
      · exact .inr (.inl ⟨h', h⟩)
      · push Not at h'
        refine .inr (.inr fun d hd' => ?_)
        have := h d hd'; have := h' d hd'; omega
  have hz : c.sizeA ≠ 0 := by show q.length ≠ 0; omega
  rcases htri with h | h | h
  · obtain ⟨a, b, r⟩ := hA h
    have n2 : ¬ ((∃ d ∈ docs, (d.terms.length : Int) + 1 = need) ∧ ∀ d ∈ docs, (d.terms.length : Int) < need) := by
      rintro ⟨_, h'⟩
      obtain ⟨d, hd', hle⟩ := h
      have := h' d hd'; omega
    have n3 : ¬ ∀ d ∈ docs, (d.terms.length : Int) + 1 < need := by
      intro h'
      obtain ⟨d, hd', hle⟩ := h
      have := h' d hd'; omega
    refine ⟨iff_of_true r h, iff_of_false b n2, iff_of_false a n3, fun s hr => ?_⟩
    by_contra hp
    exact a (.run hz hr hp)
  · obtain ⟨a, b, r⟩ := hB h
    have n1 : ¬ ∃ d ∈ docs, need ≤ d.terms.length := by
      rintro ⟨d, hd', hle⟩
      have := h.2 d hd'; omega
    have n3 : ¬ ∀ d ∈ docs, (d.terms.length : Int) + 1 < need := by
      intro h'
      obtain ⟨⟨d, hd', hle⟩, _⟩ := h
      have := h' d hd'; omega
    refine ⟨iff_of_false r n1, iff_of_true b h, iff_of_false a n3, fun s hr => ?_⟩
    by_contra hp
    exact a (.run hz hr hp)
  · obtain ⟨a, _, r⟩ := hC h
    obtain ⟨d0, hd0⟩ := List.exists_mem_of_ne_nil _ hne
    have n1 : ¬ ∃ d ∈ docs, need ≤ d.terms.length := by
      rintro ⟨d, hd', hle⟩
      have := h d hd'; omega
    have n2 : ¬ ((∃ d ∈ docs, (d.terms.length : Int) + 1 = need) ∧ ∀ d ∈ docs, (d.terms.length : Int) < need) := by
      rintro ⟨⟨d, hd', hle⟩, _⟩
      have := h d hd'; omega
    refine ⟨iff_of_false ?_ n1, iff_of_false (fun hb => ?_) n2, iff_of_true a h, fun s hr => absurd hr (r s)⟩
    · rintro ⟨_, hr⟩
      cases hr with
      | empty h => exact hz h
      | run _ hr _ => exact r _ hr
    · obtain ⟨_, s, hr, _⟩ := hb
      exact r s hr

variable (hs : ∀ r, (sort r).Perm r) (hq : q.length ≤ 65535) (hqd : q.Nodup)

include L LG hd hf hoi hs hq hqd hq0 hne in
/-- **C30** Exactly when a search in float64 arithmetic ends: what can happen to a call does not depend on the schedule. If some
document has at least `MinY` terms, it always returns; if the longest have one less, it always hangs; otherwise it always panics
(before a worker is started). -/
theorem C30_float_exact {oob : Int} {α : ℚ} (h0 : 1 / 2 ^ 20 ≤ α) (h1 : α ≤ 1)
    (hn : ∀ d ∈ docs, d.terms.length ≤ 32767) {M : Metric ℚ} {sim : Nat → Nat → Nat → ℝ} (hM : F64Metric oob M sim)
    {K : Nat} (hK : 1 ≤ K) :
    let c := suggestCall (f64Ops oob) M ρ sort oi q α K
    let need := M.minY α q.length
    ((∃ r, SuggestReturns c r) ↔ ∃ d ∈ docs, need ≤ d.terms.length) ∧
    (SuggestBlocks c ↔ (∃ d ∈ docs, (d.terms.length : Int) + 1 = need) ∧ ∀ d ∈ docs, (d.terms.length : Int) < need) ∧
    (SuggestPanics c ↔ ∀ d ∈ docs, (d.terms.length : Int) + 1 < need) ∧
    (∀ s, c.Reachable s → s.panicked = none) := by
  have hlen : 1 ≤ q.length := List.length_pos_iff.2 hq0
  have F := hM.facts hlen hq
  have h0' : 0 < α := lt_of_lt_of_le (by norm_num) h0
  refine fates_of L LG hd hf hoi hq0 hne (f64Ops oob) (F.minY_le α h0' h1) (F.le_maxY α h0 h1) fun h => ?_
  obtain ⟨a, b, _, d⟩ := C30_float_terminates_partial L LG hd hf hoi hs hq hqd h0 h1 hn hM hK h
  exact ⟨a, b, d⟩

end

section
variable {ρ : Roaring} (L : ρ.Lawful) {G : Gob} (LG : G.Lawful)
  {lower : Nat → Nat} {sort : List Alphabet → List Alphabet} {d : TokenConf} {c : WordConf} (hdc : Describes lower sort d c)
  {words : List (List Char)} (hwords : words.length < 2 ^ 32) (hfaith : ∀ w ∈ words, c.Faithful (c.wordText w))
  (hfirst : ∀ w, words.head? = some w → c.grams (c.wordText w) ≠ [])
  (hn : ∀ w ∈ words, (c.grams (c.wordText w)).length ≤ 32767)
  {oi : OpenIndex} (hoi : WordIndex ρ G lower sort d words oi)
  {msort : List (PList ρ) → List (PList ρ)} (hs : ∀ r, (msort r).Perm r) {query : List Char} {dict : Bytes}
  {dict' query' raw : Bytes} {kvs : List (Bytes × Bytes)} (hd : PctEncoded false dict dict') (hsd : PathSegment dict)
  (hq : PctEncoded false (utf8 query) query') (hsq : PathSegment (utf8 query)) (hform : FormEncoded kvs raw)
  {pf : Bytes → Except Err F64} {num : ℚ → Bytes} {oob : Int} {w : World}
  (hpub : w.published dict = some ⟨oi, ramDict (words.map utf8), suggestTokenizer lower sort d, autocompleteTokenizer lower sort d⟩)

theorem wordDocs_ne {c : WordConf} {words : List (List Char)} (hne : words ≠ []) : wordDocs c words ≠ [] := by
  intro h
  obtain ⟨v, hv⟩ := List.exists_mem_of_ne_nil _ hne
  obtain ⟨k, hk⟩ := List.getElem?_of_mem hv
  have := mem_wordDocs (c := c).2 ⟨k, v, hk, rfl⟩
  rw [h] at this; cases this

include hdc hd hsd hq hsq hform hpub in
/-- The fate of a request for a search, from what can happen to the call. -/
theorem suggest_fate_of (hqf : c.Faithful (c.wordText query))
    {m : MetricName} (hm : metricOf (fieldValue kvs "metric".toUTF8.toList) = some m) {K : Nat}
    (hK : (fieldValue kvs "topK".toUTF8.toList = [] ∧ K = 5) ∨
      (IsDecimal (fieldValue kvs "topK".toUTF8.toList) K ∧ 1 ≤ K ∧ K < 2 ^ 63)) {α : ℚ}
    (hα : (fieldValue kvs "similarity".toUTF8.toList = [] ∧ α = 1 / 2) ∨
      (fieldValue kvs "similarity".toUTF8.toList ≠ [] ∧ pf (fieldValue kvs "similarity".toUTF8.toList) = .ok (.num α)))
    (h0 : 0 < α) (h1 : α ≤ 1)
    (hok : ∀ r, ServiceSuggest (f64Ops oob) (m.metric (f64Ops oob)) ρ msort (suggestTokenizer lower sort d) oi
      (ramDict (words.map utf8)) (utf8 query) α K r → ∃ items, r = .ok items)
    (key : let c' := suggestCall (f64Ops oob) (m.metric (f64Ops oob)) ρ msort oi ((c.grams (c.wordText query)).map term) α K
      let need := (m.metric (f64Ops oob)).minY α (c.grams (c.wordText query)).length
      ((∃ r, SuggestReturns c' r) ↔ ∃ d ∈ wordDocs c words, need ≤ d.terms.length) ∧
      (SuggestBlocks c' ↔ (∃ d ∈ wordDocs c words, (d.terms.length : Int) + 1 = need) ∧
        ∀ d ∈ wordDocs c words, (d.terms.length : Int) < need) ∧
      (SuggestPanics c' ↔ ∀ d ∈ wordDocs c words, (d.terms.length : Int) + 1 < need) ∧
      (∀ s, c'.Reachable s → s.panicked = none)) :
    let fate := RequestFate (f64Ops oob) ρ msort pf num w .get (searchTarget "suggest" dict' query' raw)
    let need := (m.metric (f64Ops oob)).minY α (c.grams (c.wordText query)).length
    let size := fun v => ((c.grams (c.wordText v)).length : Int)
    ((∃ a, fate (.answered a)) ↔ ∃ v ∈ words, need ≤ size v) ∧
    (fate .stuck ↔ (∃ v ∈ words, size v + 1 = need) ∧ ∀ v ∈ words, size v < need) ∧
    (fate .aborted ↔ ∀ v ∈ words, size v + 1 < need) ∧
    ¬ fate .fatal := by
  intro fate need size
  have hc := handler_config hform hK hα h0 h1 hm (goString (utf8 query))
  obtain ⟨path, p1, p2⟩ := (C88_request hd hsd hq hsq (form_plain hform)).1
  have htok := suggestTokens hdc hqf
  have e : ((c.grams (c.wordText query)).map utf8).map goString = (c.grams (c.wordText query)).map term := by
    rw [List.map_map]; rfl
  have hex : ∀ P : Int → Prop, (∃ x ∈ wordDocs c words, P x.terms.length) ↔ ∃ v ∈ words, P (size v) := by
    intro P
    constructor
    · rintro ⟨x, hx, hP⟩
      obtain ⟨k, v, h, rfl⟩ := mem_wordDocs.1 hx
      exact ⟨v, List.mem_of_getElem? h, by simpa [wordDoc, size] using hP⟩
    · rintro ⟨v, hv, hP⟩
      obtain ⟨k, hk⟩ := List.getElem?_of_mem hv
      exact ⟨_, mem_wordDocs.2 ⟨k, v, hk, rfl⟩, by simpa [wordDoc, size] using hP⟩
  have hall : ∀ P : Int → Prop, (∀ x ∈ wordDocs c words, P x.terms.length) ↔ ∀ v ∈ words, P (size v) := by
    intro P
    have := hex fun i => ¬ P i
    constructor
    · intro h v hv
      by_contra hc
      obtain ⟨x, hx, hP⟩ := this.2 ⟨v, hv, hc⟩
      exact hP (h x hx)
    · intro h x hx
      by_contra hc
      obtain ⟨v, hv, hP⟩ := this.1 ⟨x, hx, hc⟩
      exact hP (h v hv)
  have hback : ∀ f, fate f ↔ (∃ a, f = .answered a ∧ SuggestHandled (f64Ops oob) ρ msort pf num w.published dict (utf8 query) raw a) ∨
      SuggestFails (suggestCall (f64Ops oob) (m.metric (f64Ops oob)) ρ msort oi ((c.grams (c.wordText query)).map term) α K) f := by
    intro f
    constructor
    · intro h
      cases h with
      | answered ha => exact .inl ⟨_, rfl, (answered_suggest hd hsd hq hsq hform).1 ha⟩
      | reindexed g1 g2 | completeToken g1 g2 | complete g1 g2 =>
        rw [p1] at g1; cases g1
        rw [p2] at g2; cases g2
      | suggestToken g1 g2 g3 g4 g5 =>
        rw [p1] at g1; cases g1
        rw [p2] at g2; cases g2
        rw [hpub] at g4; cases g4
        dsimp only at g5
        rw [htok] at g5; cases g5
      | suggest g1 g2 g3 g4 g5 g6 g7 =>
        rw [p1] at g1; cases g1
        rw [p2] at g2; cases g2
        rw [hpub] at g5; cases g5
        dsimp only at g6
        rw [htok] at g6; cases g6
        rw [hc] at g3; cases g3
        cases g4
        rw [e] at g7
        exact .inr g7
      | suggestNaN g1 g2 g3 g4 | suggestEndless g1 g2 g3 g4 =>
        rw [p1] at g1; cases g1
        rw [p2] at g2; cases g2
        rw [hc] at g3; cases g3
        cases g4
    · rintro (⟨a, rfl, ha⟩ | h)
      · exact .answered ((answered_suggest hd hsd hq hsq hform).2 ha)
      · exact .suggest p1 p2 hc rfl hpub htok (by rw [e]; exact h)
  obtain ⟨k1, k2, k3, k4⟩ := key
  refine ⟨?_, ?_, ?_, ?_⟩
  · rw [← hex fun i => need ≤ i, ← k1]
    constructor
    · rintro ⟨a, ha⟩
      rcases (hback _).1 ha with ⟨a', _, hh⟩ | hh
      · have hret : ∀ r, ServiceSuggest (f64Ops oob) (m.metric (f64Ops oob)) ρ msort (suggestTokenizer lower sort d) oi
            (ramDict (words.map utf8)) (utf8 query) α K r →
            ∃ r, SuggestReturns (suggestCall (f64Ops oob) (m.metric (f64Ops oob)) ρ msort oi ((c.grams (c.wordText query)).map term) α K) r := by
          rintro r (⟨_, h, _⟩ | ⟨q, cs, h, hr, _⟩)
          · rw [htok] at h; cases h
          · rw [htok] at h; cases h
            rw [e] at hr
            exact ⟨cs, hr⟩
        cases hh with
        | bad g => rw [hc] at g; cases g
        | unknown _ g => rw [hpub] at g; cases g
        | failedNaN g1 g2 | okNaN g1 g2 =>
          rw [hc] at g1; cases g1
          cases g2
        | failed g1 g2 g3 g4 | ok g1 g2 g3 g4 =>
          rw [hc] at g1; cases g1
          cases g2
          rw [hpub] at g3; cases g3
          exact hret _ g4
      · cases hh
    · rintro ⟨r, hr⟩
      have hserv : ServiceSuggest (f64Ops oob) (m.metric (f64Ops oob)) ρ msort (suggestTokenizer lower sort d) oi
          (ramDict (words.map utf8)) (utf8 query) α K (Verif.answerOf (ramDict (words.map utf8)) r) :=
        .inr ⟨_, r, htok, by rw [e]; exact hr, rfl⟩
      obtain ⟨items, eq⟩ := hok _ hserv
      rw [eq] at hserv
      exact ⟨_, (hback _).2 (.inl ⟨_, rfl, .ok hc rfl hpub hserv⟩)⟩
  · rw [← hex fun i => i + 1 = need, ← hall fun i => i < need, ← k2]
    constructor
    · intro h
      rcases (hback _).1 h with ⟨_, h, _⟩ | h
      · cases h
      · cases h with
        | blocks hb => exact hb
    · intro h
      exact (hback _).2 (.inr (.blocks h))
  · rw [← hall fun i => i + 1 < need, ← k3]
    constructor
    · intro h
      rcases (hback _).1 h with ⟨_, h, _⟩ | h
      · cases h
      · cases h with
        | own hz he => exact .start hz he
    · intro h
      refine (hback _).2 (.inr ?_)
      cases h with
      | start hz he => exact .own hz he
      | run _ hr hp => exact absurd (k4 _ hr) hp
  · intro h
    rcases (hback _).1 h with ⟨_, h, _⟩ | h
    · cases h
    · cases h with
      | worker _ hr hp => exact hp (k4 _ hr)

include L LG hdc hwords hfaith hfirst hn hoi hs hd hsd hq hsq hform hpub in
/-- **C94** What happens to a request "GET /suggest/<dictionary>/<query>/?…" to the server, exactly, and whatever the other requests
are: let `need` be the least number of n-grams that a word similar enough must have. If some word has that many, the request is answered;
if the longest words have one less, it never is (the connection stays open); otherwise the connection is closed without an answer. It
never ends the process. -/
theorem C94_suggest_fate (hqf : c.Faithful (c.wordText query)) (hqn : (c.grams (c.wordText query)).length ≤ 65535)
    (hq0 : c.grams (c.wordText query) ≠ []) (hne : words ≠ [])
    {m : MetricName} {sim : Nat → Nat → Nat → ℝ} (hm : metricOf (fieldValue kvs "metric".toUTF8.toList) = some m)
    (hM : F64Metric oob (m.metric (f64Ops oob)) sim) {K : Nat}
    (hK : (fieldValue kvs "topK".toUTF8.toList = [] ∧ K = 5) ∨
      (IsDecimal (fieldValue kvs "topK".toUTF8.toList) K ∧ 1 ≤ K ∧ K < 2 ^ 63)) {α : ℚ}
    (hα : (fieldValue kvs "similarity".toUTF8.toList = [] ∧ α = 1 / 2) ∨
      (fieldValue kvs "similarity".toUTF8.toList ≠ [] ∧ pf (fieldValue kvs "similarity".toUTF8.toList) = .ok (.num α)))
    (h0 : 1 / 2 ^ 20 ≤ α) (h1 : α ≤ 1) :
    let fate := RequestFate (f64Ops oob) ρ msort pf num w .get (searchTarget "suggest" dict' query' raw)
    let need := (m.metric (f64Ops oob)).minY α (c.grams (c.wordText query)).length
    let size := fun v => ((c.grams (c.wordText v)).length : Int)
    ((∃ a, fate (.answered a)) ↔ ∃ v ∈ words, need ≤ size v) ∧
    (fate .stuck ↔ (∃ v ∈ words, size v + 1 = need) ∧ ∀ v ∈ words, size v < need) ∧
    (fate .aborted ↔ ∀ v ∈ words, size v + 1 < need) ∧
    ¬ fate .fatal := by
  have hK1 : 1 ≤ K := by rcases hK with ⟨_, rfl⟩ | ⟨_, h, _⟩; exacts [by decide, h]
  have hgd : GoodDocs (wordDocs c words) := wordDocs_good hwords fun w hw => by have := hn w hw; omega
  refine suggest_fate_of hdc hd hsd hq hsq hform hpub hqf hm hK hα (lt_of_lt_of_le (by norm_num) h0) h1 (fun r hr => ?_) ?_
  · obtain ⟨items, _, eq, _⟩ := C67_suggest_words L LG hdc hwords hfaith hfirst hn hoi hs hqf hqn h0 h1 hM hK1 hr
    exact ⟨items, eq⟩
  · have key := C30_float_exact L LG hgd (wordDocs_first (c := c) hfirst) (wordIndex_indexOf hdc hfaith hoi) (sort := msort)
      (q := (c.grams (c.wordText query)).map term) (by simpa using hq0) (wordDocs_ne hne) hs (by simpa using hqn)
      ((grams_nodup _).map_on fun _ _ _ _ e => term_inj e) h0 h1
      (fun x hx => by
        obtain ⟨k, w, h, rfl⟩ := mem_wordDocs.1 hx
        simpa [wordDoc] using hn w (List.mem_of_getElem? h)) hM hK1
    simp only [List.length_map] at key
    exact key

end

/-- **C94** The dictionary is "apple", "Apply", "maple", with trigrams; the metric is Jaccard, the similarity has its default 1/2. The
query of ten letters is answered; with twelve the request hangs for ever; with thirteen the connection is closed. -/
theorem C94_fate_example : ∃ (G : Gob) (_ : G.Lawful) (w : World), WellBuilt toyRoaring G 2 w ∧
    ∀ (pf : Bytes → Except Err F64) (num : ℚ → Bytes),
      let fate := fun t : String => RequestFate (f64Ops 0) toyRoaring id pf num w .get (utf8 t.toList)
      (∃ a, fate "/suggest/fruit/abcdefghij/?metric=Jaccard" (.answered a)) ∧
      (∀ f, fate "/suggest/fruit/abcdefghijkl/?metric=Jaccard" f ↔ f = .stuck) ∧
      (∀ f, fate "/suggest/fruit/abcdefghijklm/?metric=Jaccard" f ↔ f = .aborted) := by
  obtain ⟨G, LG, oi, h⟩ := tiny_index
  obtain ⟨w, hwd⟩ : ∃ w : World, w = ⟨fun _ => some ⟨oi, ramDict (tinyWords.map utf8), suggestTokenizer asciiLower id tinyConf,
    autocompleteTokenizer asciiLower id tinyConf⟩, [utf8 "fruit".toList]⟩ := ⟨_, rfl⟩
  have hw : WellBuilt toyRoaring G 2 w := by
    intro dict p hp
    rw [hwd] at hp
    cases hp
    exact ⟨asciiLower, id, tinyConf, wordDocs tinySpec tinyWords, by decide, by decide, by decide +kernel, rfl, rfl,
      wordDocs_good (by decide) (by decide +kernel), wordDocs_first (by decide +kernel), wordIndex_indexOf tiny_describes tiny_faithful h⟩
  have hform : FormEncoded [(utf8 "metric".toList, utf8 "Jaccard".toList)] (utf8 "metric=Jaccard".toList) := by
    have l : ∀ s : String, (∀ c ∈ utf8 s.toList, Unreserved c) → PctEncoded true (utf8 s.toList) (utf8 s.toList) := fun s h => enc_literal h
    have h := FormEncoded.last (l "metric" (by unfold Unreserved; decide +kernel)) (l "Jaccard" (by unfold Unreserved; decide +kernel))
    have e : utf8 "metric=Jaccard".toList = utf8 "metric".toList ++ 61 :: utf8 "Jaccard".toList := by decide +kernel
    rw [e]
    exact h
  have hsize : ∀ v ∈ tinyWords, (tinySpec.grams (tinySpec.wordText v)).length = 5 := by decide +kernel
  refine ⟨G, LG, w, hw, fun pf num => ?_⟩
  have key := fun (query : List Char) h1 h2 h3 h4 h5 => C94_suggest_fate toyLawful LG tiny_describes (by decide) tiny_faithful (by decide +kernel)
    (by decide +kernel) h (msort := id) (fun _ => .refl _) (query := query) (dict := utf8 "fruit".toList) (w := w) (pf := pf) (num := num) (oob := 0)
    (enc_literal (by unfold Unreserved; decide +kernel)) (by unfold PathSegment; decide +kernel)
    (enc_literal h1) h2 hform (by rw [hwd]) (faithful_of_clean h3) h4 h5 (by decide) (m := .jaccard) (by decide +kernel) .jaccard (K := 5)
    (.inl ⟨by decide +kernel, rfl⟩) (α := 1 / 2) (.inl ⟨by decide +kernel, rfl⟩) (by norm_num) (by norm_num)
  refine ⟨?_, fun f => ?_, fun f => ?_⟩
  · have e : utf8 "/suggest/fruit/abcdefghij/?metric=Jaccard".toList =
        searchTarget "suggest" (utf8 "fruit".toList) (utf8 "abcdefghij".toList) (utf8 "metric=Jaccard".toList) := by decide +kernel
    beta_reduce; rw [e]
    obtain ⟨k, _⟩ := key "abcdefghij".toList (by unfold Unreserved; decide +kernel) (by unfold PathSegment; decide +kernel)
      (by decide +kernel) (by decide +kernel) (by decide +kernel)
    exact k.2 ⟨"apple".toList, by decide, by decide +kernel⟩
  · have e : utf8 "/suggest/fruit/abcdefghijkl/?metric=Jaccard".toList =
        searchTarget "suggest" (utf8 "fruit".toList) (utf8 "abcdefghijkl".toList) (utf8 "metric=Jaccard".toList) := by decide +kernel
    beta_reduce; rw [e]
    obtain ⟨k1, k2, k3, k4⟩ := key "abcdefghijkl".toList (by unfold Unreserved; decide +kernel) (by unfold PathSegment; decide +kernel)
      (by decide +kernel) (by decide +kernel) (by decide +kernel)
    constructor
    · intro hf
      cases f with
      | answered a =>
        exfalso
        have := k1.1 ⟨a, hf⟩
        revert this; decide +kernel
      | stuck => rfl
      | aborted =>
        exfalso
        have := k3.1 hf
        revert this; decide +kernel
      | fatal => exact absurd hf k4
    · rintro rfl
      exact k2.2 (by decide +kernel)
  · have e : utf8 "/suggest/fruit/abcdefghijklm/?metric=Jaccard".toList =
        searchTarget "suggest" (utf8 "fruit".toList) (utf8 "abcdefghijklm".toList) (utf8 "metric=Jaccard".toList) := by decide +kernel
    beta_reduce; rw [e]
    obtain ⟨k1, k2, k3, k4⟩ := key "abcdefghijklm".toList (by unfold Unreserved; decide +kernel) (by unfold PathSegment; decide +kernel)
      (by decide +kernel) (by decide +kernel) (by decide +kernel)
    constructor
    · intro hf
      cases f with
      | answered a =>
        exfalso
        have := k1.1 ⟨a, hf⟩
        revert this; decide +kernel
      | stuck =>
        exfalso
        have := k2.1 hf
        revert this; decide +kernel
      | aborted => rfl
      | fatal => exact absurd hf k4
    · rintro rfl
      exact k3.2 (by decide +kernel)

end Verif.Props
