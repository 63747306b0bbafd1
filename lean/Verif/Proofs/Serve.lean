import Verif.Proofs.Spellchecker
import Verif.Proofs.SuggestLaws
import Verif.Proofs.SuggestRun
import Verif.Proofs.FloatMetric
/- When the searches of a request cannot panic, and when they do. -/
namespace Verif.Serve
open Verif Spec Heap TopKQueue
open Verif.Props (packed FirstNonempty IndexOf IndexOf.ok C18_cpMerge_overflow C24_search)

section
variable {ρ : Roaring} (L : ρ.Lawful) {G : Gob} (LG : G.Lawful) {docs : List Doc}
    (hd : GoodDocs docs) (hf : FirstNonempty docs) {oi : OpenIndex} (hoi : IndexOf ρ G docs oi)
    {sort : List (PList ρ) → List (PList ρ)} (hs : ∀ r, (sort r).Perm r) {q : List String} (hq : FewCommon docs q)

include L LG hd hf hoi hs hq in
/-- Every search on the opened index with a threshold other than 0 (or for no terms) hands a list of documents to the collector. -/
theorem search_feeds {κ : Type} {b : Int} {f} (hb : (builtIndices (κ := κ) ρ sort oi q).get b = some f) (env : Nat → SkipList)
    (collect : κ → MergeCandidate → κ × CollectRes Err) (T : Int) (hT : T ≠ 0 ∨ q = []) (k : κ) :
    ∃ out : List (Nat × Nat), (∀ x ∈ out, x.1 < 2 ^ 32 ∧ x.2 < 2 ^ 32 ∧ ∃ d ∈ docs, d.id = x.1) ∧
      f env collect T k = feed collect k (packed out) := by
  have hseg := segmentsOk (κ := κ) L LG hd hf hoi hs hq
  have h0 : 0 ≤ b := by
    by_contra hneg
    simp [builtIndices, hneg] at hb
  obtain ⟨n, rfl⟩ := Int.eq_ofNat_of_zero_le h0
  rcases lt_or_ge T 1 with hlt | hge
  · refine ⟨[], by simp, ?_⟩
    simp only [builtIndices] at hb
    rw [if_pos (by omega)] at hb
    obtain ⟨tab, htab, rfl⟩ := Option.map_eq_some_iff.1 hb
    have hok := hoi.ok L LG hd hf
    show search ρ (cpMerge collect sort) oi.docs env tab q T k = (k, none)
    unfold search
    dsimp only
    split
    · rfl
    · split
      · rename_i e he
        -- the terms are in the table
        have hsub : ∀ x ∈ filterTerms tab T q [], tab.has x = true := by
          rcases filterTerms_spec tab T q [] with e' | e'
          · rw [e']; intro x hx
            simpa using (List.mem_filter.1 (by simpa using hx)).2
          · exfalso; have := e'.1; omega
        obtain ⟨rid, e2, _⟩ := openAll_spec hok (by simpa using htab) env (filterTerms tab T q []) (by
          intro x hx
          exact (hok.has n tab (by simpa using htab) x).1 (hsub x hx))
        rw [e2] at he; cases he
      · rename_i rid he
        show cpMerge collect sort rid T k = _
        unfold cpMerge optimizerMerge
        rw [if_pos]
        rcases hT with hT | rfl
        · right; right; omega
        · right; left
          have : filterTerms tab T [] [] = [] := by simp [filterTerms]
          rw [this] at he
          simp only [openAll] at he
          cases he; rfl
  · obtain ⟨m, rfl⟩ := Int.eq_ofNat_of_zero_le (by omega : 0 ≤ T)
    obtain ⟨out, _, o2, o3⟩ := hseg.some n f hb env collect m (by omega) k
    refine ⟨out, ?_, o3⟩
    intro x hx
    obtain ⟨d, hdm, e1, _, e3, _⟩ := (o2 x.1 x.2).1 hx
    refine ⟨e1 ▸ hd.id32 d hdm, ?_, d, hdm, e1⟩
    have := shared_le_query q d
    have := hq.len
    omega

end

/-! ### Suggest -/

section
variable {S : Type} [LinearOrder S] [Inhabited S]

/-- Nothing has panicked and every queue is a queue of capacity `K`. -/
structure NoPanic (K : Nat) (s : SState S) : Prop where
  alive : s.panicked = none
  queue : ∃ C, s.queue.Holds K C
  found : ∀ (i : Nat) b q, s.workers[i]? = some (.found b q) → ∃ C, q.Holds K C

omit [Inhabited S] in
theorem found_set {K : Nat} {ws : List (Worker S)} {j : Nat} {w : Worker S}
    (h : ∀ (i : Nat) b q, ws[i]? = some (.found b q) → ∃ C, q.Holds K C)
    (hw : ∀ b q, w = .found b q → ∃ C, q.Holds K C) :
    ∀ (i : Nat) b q, (ws.set j w)[i]? = some (.found b q) → ∃ C, q.Holds K C := by
  intro i b q hi
  rw [List.getElem?_set] at hi
  split at hi
  · split at hi
    · exact hw b q (by simpa using hi)
    · simp at hi
  · exact h i b q hi

variable {Env : Type} {c : SConf S Env} {K : Nat} (hK : 0 < K) (htop : c.topK = K)
  (hsearch : ∀ {b : Int} {f}, c.indices.get b = some f → ∀ env collect (T : Int), T ≠ 0 → ∀ k,
    ∃ out : List (Nat × Nat), (∀ x ∈ out, x.1 < 2 ^ 32 ∧ x.2 < 2 ^ 32) ∧ f env collect T k = feed collect k (packed out))

include hK htop hsearch in
theorem noPanic_reachable {s : SState S} (h : c.Reachable s) : NoPanic K s := by
  induction h with
  | @start s h =>
    unfold SConf.start at h
    split at h
    · cases h
    · obtain ⟨q, hq⟩ := new_ok (S := S) K
      rw [htop, hq] at h
      cases h
      refine ⟨rfl, ⟨0, new_holds hK hq⟩, fun i b q hi => ?_⟩
      have := List.mem_of_getElem? hi
      have := List.eq_of_mem_replicate this
      cases this
  | @step s s' _ hst ih =>
    have plain : ∀ {j : Nat} {w : Worker S}, (∀ b q, w ≠ .found b q) →
        ∀ (i : Nat) b q, (s.workers.set j w)[i]? = some (.found b q) → ∃ C, q.Holds K C := by
      intro j w hw
      exact found_set ih.found (fun b q e => absurd e (hw b q))
    have goodSearch : ∀ {b : Int} {a : S} {f} {q0 : TopKQueue S} (env : Env), ¬ c.skips a b → c.indices.get b = some f →
        TopKQueue.new c.topK = .ok q0 → ∃ q' C, f env (fuzzyCollect (c.score b)) (c.thr a b) q0 = (q', none) ∧ q'.Holds K C := by
      intro b a f q0 env hsk hg hn
      obtain ⟨out, ho, e⟩ := hsearch hg env (fuzzyCollect (c.score b)) (c.thr a b) (fun h => hsk (.inl h)) q0
      obtain ⟨q', e', h'⟩ := feed_fuzzy (c.score b) out (new_holds hK (by rw [← htop]; exact hn)) ho
      exact ⟨q', _, by rw [e]; exact e', h'⟩
    cases hst with
    | send h1 h2 h3 => exact ⟨ih.alive, ih.queue, ih.found⟩
    | handoff h1 h2 h3 h4 => exact ⟨ih.alive, ih.queue, plain (by simp)⟩
    | close h1 h2 h3 => exact ⟨ih.alive, ih.queue, ih.found⟩
    | recv h1 h2 h3 => exact ⟨ih.alive, ih.queue, plain (by simp)⟩
    | exit h1 h2 h3 h4 => exact ⟨ih.alive, ih.queue, plain (by simp)⟩
    | load h1 h2 => exact ⟨ih.alive, ih.queue, plain (by simp)⟩
    | skip h1 h2 h3 => exact ⟨ih.alive, ih.queue, plain (by simp)⟩
    | search env h1 h2 h3 h4 h5 h6 =>
      obtain ⟨q', C, e, hq'⟩ := goodSearch env h3 h4 h5
      rw [e] at h6
      cases h6
      refine ⟨ih.alive, ih.queue, found_set ih.found ?_⟩
      intro b q hb
      cases hb
      exact ⟨C, hq'⟩
    | searchErr env h1 h2 h3 h4 h5 h6 h7 =>
      obtain ⟨q', C, e, hq'⟩ := goodSearch env h3 h4 h5
      rw [e] at h6
      cases h6
    | searchPanic env h1 h2 h3 h4 h5 h6 h7 =>
      obtain ⟨q', C, e, hq'⟩ := goodSearch env h3 h4 h5
      rw [e] at h6
      cases h6
    | commit h1 h2 h3 h4 =>
      obtain ⟨C, hC⟩ := ih.queue
      obtain ⟨D, hD⟩ := ih.found _ _ _ h2
      obtain ⟨g', e, hg⟩ := merge_spec hC hD
      rw [e] at h4
      cases h4
      exact ⟨ih.alive, ⟨_, hg⟩, plain (by simp)⟩
    | commitPanic h1 h2 h3 h4 =>
      obtain ⟨C, hC⟩ := ih.queue
      obtain ⟨D, hD⟩ := ih.found _ _ _ h2
      obtain ⟨g', e, hg⟩ := merge_spec hC hD
      rw [e] at h4
      cases h4
    | raise h1 h2 => exact ⟨ih.alive, ih.queue, plain (by simp)⟩
    | unlock h1 h2 => exact ⟨ih.alive, ih.queue, plain (by simp)⟩

end

/-! ### Autocomplete -/

section
variable {κ S Env : Type} [LinearOrder S] [Inhabited S] {c : AConf κ S Env} {P : κ → Prop} {Q : TopKQueue S → Prop}
  (hinit : ∀ {g}, TopKQueue.new c.limit = .ok g → Q g)
  (hsearch : ∀ {b : Nat} {f}, c.indices.get b = some f → ∀ env, ∃ k, f env c.collect c.termsLen c.create = (k, none) ∧ P k)
  (hcommit : ∀ {g k}, Q g → P k → ∃ g', c.merge g k = .ok g' ∧ Q g')

include hinit hsearch hcommit in
theorem noPanic_areachable {s : AState κ S} (h : c.Reachable s) : s.panicked = none ∧ Q s.queue ∧
    ∀ (i : Nat) b k, s.workers[i]? = some (.found b k) → P k := by
  induction h with
  | @start s h =>
    unfold AConf.start at h
    split at h
    · cases h
    · rename_i g hg
      cases h
      exact ⟨rfl, hinit hg, by simp⟩
  | @step s s' _ hst ih =>
    obtain ⟨i1, i2, i3⟩ := ih
    have setp : ∀ {j : Nat} {w : AWorker κ}, (∀ b k, w = .found b k → P k) →
        ∀ (i : Nat) b k, (s.workers.set j w)[i]? = some (.found b k) → P k := by
      intro j w hw i b k hi
      rw [List.getElem?_set] at hi
      split at hi
      · split at hi
        · exact hw b k (by simpa using hi)
        · simp at hi
      · exact i3 i b k hi
    cases hst with
    | skip h1 h2 h3 => exact ⟨i1, i2, i3⟩
    | spawn h1 h2 h3 =>
      refine ⟨i1, i2, fun i b k hi => ?_⟩
      have := List.mem_of_getElem? hi
      simp only [List.mem_append, List.mem_singleton, reduceCtorEq, or_false] at this
      obtain ⟨j, hj⟩ := List.mem_iff_getElem?.1 this
      exact i3 j b k hj
    | search env h1 h2 h3 h4 =>
      obtain ⟨k, e, hk⟩ := hsearch h3 env
      rw [e] at h4; cases h4
      exact ⟨i1, i2, setp (fun b k e => by cases e; exact hk)⟩
    | searchErr env h1 h2 h3 h4 =>
      obtain ⟨k, e, hk⟩ := hsearch h3 env
      rw [e] at h4; cases h4
    | searchPanic env h1 h2 h3 h4 =>
      obtain ⟨k, e, hk⟩ := hsearch h3 env
      rw [e] at h4; cases h4
    | commit h1 h2 h3 =>
      obtain ⟨g, e, hg⟩ := hcommit i2 (i3 _ _ _ h2)
      rw [e] at h3; cases h3
      exact ⟨i1, hg, setp (by simp)⟩
    | commitPanic h1 h2 h3 =>
      obtain ⟨g, e, hg⟩ := hcommit i2 (i3 _ _ _ h2)
      rw [e] at h3; cases h3

end

section
variable {ρ : Roaring} (L : ρ.Lawful) {G : Gob} (LG : G.Lawful) {docs : List Doc}
    (hd : GoodDocs docs) (hf : FirstNonempty docs) {oi : OpenIndex} (hoi : IndexOf ρ G docs oi)
    {sort : List (PList ρ) → List (PList ρ)} (hs : ∀ r, (sort r).Perm r) {q : List String} (hq : FewCommon docs q)
    {S : Type} [LinearOrder S] [Inhabited S]

include L LG hd hf hoi hs hq in
/-- No goroutine of `Suggest` panics. -/
theorem suggest_noPanic (F : FloatOps S) (M : Metric S) (α : S) (topK : Int) (hK : 1 ≤ topK) {s : SState S}
    (h : (suggestCall F M ρ sort oi q α topK).Reachable s) : s.panicked = none := by
  obtain ⟨K, rfl⟩ := Int.eq_ofNat_of_zero_le (by omega : 0 ≤ topK)
  refine (noPanic_reachable (K := K) (by omega) rfl ?_ h).alive
  intro b f hb env collect T hT k
  obtain ⟨out, h1, h2⟩ := search_feeds L LG hd hf hoi hs hq hb env collect T (.inl hT) k
  exact ⟨out, fun x hx => ⟨(h1 x hx).1, (h1 x hx).2.1⟩, h2⟩

include L LG hd hf hoi hs hq in
/-- No goroutine of `Autocomplete` panics. -/
theorem autocomplete_noPanic (limit : Int) (hK : 0 ≤ limit) {s : AState (List MergeCandidate) ℚ}
    (h : (autocompleteCall ρ sort oi q limit).Reachable s) : s.panicked = none := by
  obtain ⟨K, rfl⟩ := Int.eq_ofNat_of_zero_le hK
  refine (noPanic_areachable (P := fun k => k.length ≤ K) (Q := fun g => K = 0 ∨ ∃ C, g.Holds K C) ?_ ?_ ?_ h).1
  · intro g hg
    rcases Nat.eq_zero_or_pos K with h0 | hpos
    · exact .inl h0
    · exact .inr ⟨0, new_holds hpos hg⟩
  · intro b f hb env
    obtain ⟨out, _, h2⟩ := search_feeds L LG hd hf hoi hs hq hb env (firstKCollect K) q.length
      (by rcases q with _ | ⟨x, q⟩
          · exact .inr rfl
          · left; simp; omega) []
    refine ⟨_, h2.trans (feed_firstK _ _ (by simp)), ?_⟩
    simp
  · intro g k hg hk
    rcases hg with h0 | ⟨C, hC⟩
    · subst h0
      have : k = [] := List.length_eq_zero_iff.1 (by omega)
      subst this
      exact ⟨g, rfl, .inl rfl⟩
    · obtain ⟨g', e, hg'⟩ := addAll_spec (k.map firstKCandidate) hC
      exact ⟨g', e, .inr ⟨_, hg'⟩⟩

include L LG hd hf hoi hs hq in
/-- No goroutine of `Autocomplete` with the language model collector panics. -/
theorem lm_noPanic (sc : Nat → Except Err S) (score : Nat → S) (hsc : ∀ d ∈ docs, sc d.id = .ok (score d.id)) (topK : Int)
    (hK : 1 ≤ topK) {s : AState (TopKQueue S) S}
    (h : (lmAutocompleteCall ρ sort oi q sc topK).Reachable s) : s.panicked = none := by
  obtain ⟨K, rfl⟩ := Int.eq_ofNat_of_zero_le (by omega : 0 ≤ topK)
  have hpos : 0 < K := by omega
  refine (noPanic_areachable (P := fun k => ∃ C, k.Holds K C) (Q := fun g => ∃ C, g.Holds K C) ?_ ?_ ?_ h).1
  · intro g hg
    exact ⟨0, new_holds hpos hg⟩
  · intro b f hb env
    obtain ⟨out, h1, h2⟩ := search_feeds L LG hd hf hoi hs hq hb env (lmCollect sc) q.length
      (by rcases q with _ | ⟨x, q⟩
          · exact .inr rfl
          · left; simp; omega) (emptyQueue K)
    have h0 : (emptyQueue K : TopKQueue S).Holds K 0 :=
      new_holds hpos (by unfold TopKQueue.new emptyQueue; rw [if_neg (by omega)])
    obtain ⟨q', e1, h3⟩ := feed_lm (sc := sc) (score := score) out h0 (by
      intro x hx
      obtain ⟨a1, a2, d, hdm, e⟩ := h1 x hx
      exact ⟨a1, a2, e ▸ hsc d hdm⟩)
    exact ⟨q', h2.trans e1, _, h3⟩
  · rintro g k ⟨C, hC⟩ ⟨D, hD⟩
    obtain ⟨g', e, hg'⟩ := merge_spec hC hD
    exact ⟨g', e, _, hg'⟩

end

/-! ### A search that panics -/

section
variable {ρ : Roaring} (L : ρ.Lawful) {G : Gob} (LG : G.Lawful) {docs : List Doc}
    (hd : GoodDocs docs) (hf : FirstNonempty docs) {oi : OpenIndex} (hoi : IndexOf ρ G docs oi)
    {sort : List (PList ρ) → List (PList ρ)} (hs : ∀ r, (sort r).Perm r) {q : List String}

include L LG hd hf hoi hs in
/-- A document with more than 65535 of the terms of the query makes the search of its cardinality panic. -/
theorem search_overflow {κ : Type} {d : Doc} (hdm : d ∈ docs) (hov : 0xFFFF < shared q d) {T : Nat} (h1 : 1 ≤ T) (hT : T ≤ 0xFFFF) :
    ∃ f, (builtIndices (κ := κ) ρ sort oi q).get d.terms.length = some f ∧
      ∀ env collect k, f env collect T k = (k, some .panicOverflow) := by
  have hok := hoi.ok L LG hd hf
  have hne : d.terms ≠ [] := by
    intro e
    rw [shared, e] at hov
    simp at hov
  cases htab : oi.table d.terms.length with
  | none =>
    exact absurd ((C24_search (κ := Unit) L LG (fun _ _ => ((), .ok)) sort hs _ (.inl rfl) hd hf hoi _).1 htab d hdm rfl) hne
  | some tab =>
    have hb : (builtIndices (κ := κ) ρ sort oi q).get d.terms.length = some fun env collect T k =>
        search ρ (cpMerge collect sort) oi.docs env tab q T k := by
      simp only [builtIndices]
      rw [if_pos (by omega)]
      simp [htab]
    refine ⟨_, hb, fun env collect k => ?_⟩
    have hhas : ∀ x, tab.has x = true ↔ postings docs d.terms.length x ≠ [] := fun x => hok.has _ tab htab x
    have hmem : ∀ t, t ∈ d.terms → d.id ∈ postings docs d.terms.length t := fun t ht =>
      List.mem_map.2 ⟨d, List.mem_filter.2 ⟨hdm, by simp [ht]⟩, rfl⟩
    have hocc : shared q d ≤ occurrences ((q.filter tab.has).map (postings docs d.terms.length)) d.id := by
      rw [occurrences_map_filter _ tab.has hhas]
      unfold shared
      apply List.Sublist.length_le
      apply List.monotone_filter_right
      intro t ht
      simp only [decide_eq_true_eq] at ht ⊢
      exact hmem t ht
    have hlen := occurrences_le ((q.filter tab.has).map (postings docs d.terms.length)) d.id
    rw [List.length_map] at hlen
    have hspec := filterTerms_spec tab T q []
    simp only [List.nil_append] at hspec
    have e : filterTerms tab T q [] = q.filter tab.has := by
      rcases hspec with e | e
      · exact e
      · exfalso; have := e.2; omega
    show search ρ (cpMerge collect sort) oi.docs env tab q T k = _
    unfold search
    dsimp only
    rw [e, if_neg (by omega)]
    obtain ⟨rid, e1, hop⟩ := openAll_spec hok htab env (q.filter tab.has)
      (fun x hx => (hhas x).1 (List.mem_filter.1 hx).2)
    rw [e1]
    have hasc : ∀ c t, (postings docs c t).Pairwise (· < ·) := by
      intro c t
      refine List.Pairwise.sublist (postings_sublist docs c t) ?_
      rw [List.pairwise_map]; exact hd.ids
    have h32 : ∀ c t, ∀ x ∈ postings docs c t, x < 2 ^ 32 := by
      intro c t x hx
      obtain ⟨d', hd', rfl⟩ := List.mem_map.1 ((postings_sublist docs c t).subset hx)
      exact hd.id32 d' hd'
    exact C18_cpMerge_overflow collect sort hs rid _ T k h1 hop
      (fun l hl => by obtain ⟨t, _, rfl⟩ := List.mem_map.1 hl; exact hasc _ t)
      (fun l hl => by obtain ⟨t, _, rfl⟩ := List.mem_map.1 hl; exact h32 _ t)
      (by rw [List.length_map]; omega) (p := d.id) (by omega) (by omega)

end

section
variable {S : Type} [LinearOrder S] [Inhabited S] {Env : Type} {c : SConf S Env}

theorem sendLoop_down {bMin bMax i j : Int} (h1 : bMin ≤ i) (h2 : bMax < j) :
    sendLoop bMin bMax i j = i :: sendLoop bMin bMax (i - 1) (j + 1) := by
  rw [sendLoop, if_pos (.inl h1), if_pos h1, if_neg (by omega)]
  rfl

/-- The first worker takes the sizes from the largest down; the first that has an index makes it panic. -/
theorem run_panics {b : Int} {q0 : TopKQueue S} (hmin : c.bMin ≤ b) (hnone : ∀ x, b < x → c.indices.get x = none)
    {f} (hget : c.indices.get b = some f) (hsk : ¬ c.skips c.similarity b) (hnew : TopKQueue.new c.topK = .ok q0) (env : Env)
    {q' : TopKQueue S} {e : Err} (hp : f env (fuzzyCollect (c.score b)) (c.thr c.similarity b) q0 = (q', some e)) (he : e.isPanic = true)
    {cl : Bool} {cap : Nat} {g : TopKQueue S} {lk : Bool} {ws : List (Worker S)} : ∀ (n : Nat) (j : Int), c.bMax < j →
    ∃ s, c.Run ⟨sendLoop c.bMin c.bMax (b + n) j, cl, [], cap, c.similarity, g, lk, .idle :: ws, none⟩ s ∧ s.panicked ≠ none
  | n, j, hj => by
    have take : ∀ (x : Int) (rest : List Int), c.Run ⟨x :: rest, cl, [], cap, c.similarity, g, lk, .idle :: ws, none⟩
        ⟨rest, cl, [], cap, c.similarity, g, lk, .loaded x c.similarity :: ws, none⟩ := by
      intro x rest
      refine Relation.ReflTransGen.head (b := ⟨rest, cl, [], cap, c.similarity, g, lk, .got x :: ws, none⟩) ?_ (.single ?_)
      · exact .handoff (s := ⟨x :: rest, cl, [], cap, c.similarity, g, lk, .idle :: ws, none⟩) (i := 0) rfl rfl rfl rfl
      · exact .load (s := ⟨rest, cl, [], cap, c.similarity, g, lk, .got x :: ws, none⟩) (i := 0) rfl rfl
    rw [sendLoop_down (by omega) hj]
    match n with
    | 0 =>
      have e0 : b + ((0 : Nat) : Int) = b := by omega
      rw [e0]
      refine ⟨_, (take _ _).tail (.searchPanic (i := 0) env rfl rfl (b := b) (a := c.similarity) ?_ hget hnew hp he), by simp⟩
      exact hsk
    | n + 1 =>
      obtain ⟨s, hs, hpan⟩ := run_panics hmin hnone hget hsk hnew env hp he (cl := cl) (cap := cap) (g := g) (lk := lk) (ws := ws)
        n (j + 1) (by omega)
      refine ⟨s, ?_, hpan⟩
      refine (take _ _).trans (Relation.ReflTransGen.head
        (b := ⟨sendLoop c.bMin c.bMax (b + n) (j + 1), cl, [], cap, c.similarity, g, lk, .idle :: ws, none⟩) ?_ ?_)
      · have e1 : b + ((n + 1 : Nat) : Int) - 1 = b + n := by omega
        rw [e1]
        exact .skip (s := ⟨sendLoop c.bMin c.bMax (b + n) (j + 1), cl, [], cap, c.similarity, g, lk,
          .loaded (b + ((n + 1 : Nat) : Int)) c.similarity :: ws, none⟩) (i := 0) rfl rfl (.inr (.inr (.inr (hnone _ (by omega)))))
      · exact hs

end

section
variable {ρ : Roaring} (L : ρ.Lawful) {G : Gob} (LG : G.Lawful) {docs : List Doc}
    (hd : GoodDocs docs) (hf : FirstNonempty docs) {oi : OpenIndex} (hoi : IndexOf ρ G docs oi)
    {sort : List (PList ρ) → List (PList ρ)} (hs : ∀ r, (sort r).Perm r) {q : List String}
    {S : Type} [LinearOrder S] [Inhabited S]

include L LG hd hf hoi hs in
/-- A query with more than 65535 tokens among the terms of a document with the most terms makes a goroutine of `Suggest` panic. -/
theorem suggest_overflow (F : FloatOps S) (M : Metric S) (α : S) (topK : Int) (hK : 0 ≤ topK) {d : Doc} (hdm : d ∈ docs)
    (hmax : ∀ x ∈ docs, x.terms.length ≤ d.terms.length) (hov : 0xFFFF < shared q d) (hlt : d.terms.length < q.length)
    (hmin : M.minY α q.length ≤ d.terms.length) (hmx : (d.terms.length : Int) ≤ M.maxY α q.length)
    (h1 : 1 ≤ M.threshold α q.length d.terms.length) (h2 : M.threshold α q.length d.terms.length ≤ d.terms.length)
    (h3 : M.threshold α q.length d.terms.length ≤ 0xFFFF) :
    ∃ s, (suggestCall F M ρ sort oi q α topK).Reachable s ∧ s.panicked ≠ none := by
  have hok := hoi.ok L LG hd hf
  have hsize : oi.size = d.terms.length + 1 := by
    rw [hok.size]
    have := le_maxCard hdm
    have := maxCard_le (n := d.terms.length + 1) (fun x hx => by have := hmax x hx; omega)
    omega
  obtain ⟨T, hT⟩ := Int.eq_ofNat_of_zero_le (by omega : 0 ≤ M.threshold α q.length d.terms.length)
  obtain ⟨f, hget, hpan⟩ := search_overflow (κ := TopKQueue S) L LG hd hf hoi hs hdm hov (T := T) (by omega) (by omega)
  generalize hc : suggestCall F M ρ sort oi q α topK = c
  have c1 : c.indices = builtIndices ρ sort oi q := by rw [← hc]; rfl
  have c2 : c.sizeA = q.length := by rw [← hc]; rfl
  have c3 : c.metric = M := by rw [← hc]; rfl
  have c4 : c.similarity = α := by rw [← hc]; rfl
  have c5 : c.topK = topK := by rw [← hc]; rfl
  have hsz : (c.indices.size : Int) = d.terms.length + 1 := by
    rw [c1]; show (oi.size : Int) = _; rw [hsize]; omega
  have hbmin : c.bMin = M.minY α q.length := by unfold SConf.bMin; rw [c2, c3, c4]
  have hbmax : c.bMax = d.terms.length := by
    unfold SConf.bMax
    rw [c2, c3, c4]
    split
    · omega
    · omega
  obtain ⟨K, rfl⟩ := Int.eq_ofNat_of_zero_le hK
  obtain ⟨q0, hnew⟩ := new_ok (S := S) K
  have hthr : c.thr c.similarity d.terms.length = T := by
    unfold SConf.thr; rw [c2, c3, c4]; exact hT
  obtain ⟨m, hm⟩ : ∃ m, min 5 (c.bMax - c.bMin + 1).toNat = m + 1 := ⟨min 5 (c.bMax - c.bMin + 1).toNat - 1, by
    rw [hbmax, hbmin]; omega⟩
  have hstart : c.start = .ok ⟨sendLoop c.bMin c.bMax c.sizeA (c.sizeA + 1), false, [], (c.bMax - c.bMin + 1).toNat, c.similarity,
      q0, false, .idle :: List.replicate m .idle, none⟩ := by
    unfold SConf.start
    rw [if_neg (by rw [hbmax, hbmin]; omega), c5, hnew, hm, List.replicate_succ]
  obtain ⟨n, hn⟩ : ∃ n : Nat, (c.sizeA : Int) = d.terms.length + n := ⟨q.length - d.terms.length, by rw [c2]; omega⟩
  obtain ⟨s, hrun, hps⟩ := run_panics (c := c) (b := d.terms.length) (q0 := q0) (by rw [hbmin]; exact hmin)
    (by
      intro x hx
      rw [c1]
      simp only [builtIndices]
      rw [if_pos (by omega), Option.map_eq_none_iff]
      unfold OpenIndex.table
      have hl : oi.tables.length = d.terms.length + 1 := hsize
      rw [List.getElem?_eq_none (by omega)]; rfl)
    (f := f) (by rw [c1]; exact hget)
    (by
      unfold SConf.skips
      rw [hthr, c1, hget, c2]
      simp only [not_or]
      refine ⟨by omega, by omega, by omega, by simp⟩)
    (by rw [c5]; exact hnew) (fun _ => ⟨⟨[], 0⟩, 0, 0, 0, 0, 0, 0, false⟩) (by rw [hthr]; exact hpan _ _ _) rfl
    (cl := false) (cap := (c.bMax - c.bMin + 1).toNat) (g := q0) (lk := false) (ws := List.replicate m .idle)
    n (c.sizeA + 1) (by rw [hbmax, hn]; omega)
  rw [← hn] at hrun
  exact ⟨s, (SConf.Reachable.start hstart).run hrun, hps⟩

end

/-- The threshold of the overlap metric in float64. -/
theorem overlap_thr {oob : Int} {α : ℚ} (h0 : 0 < α) (h1 : α ≤ 1) {a b : Nat} (ha : a < 2 ^ 31) (hb1 : 1 ≤ b) (hab : b ≤ a) :
    1 ≤ (overlapMetric (f64Ops oob)).threshold α a b ∧ (overlapMetric (f64Ops oob)).threshold α a b ≤ b := by
  have e : (overlapMetric (f64Ops oob)).threshold α a b = ⌈rnd53 (α * (b : ℚ))⌉ := by
    simp only [overlapMetric]
    rw [f64_ofNat (n := a) (by omega), f64_ofNat (n := b) (by omega)]
    have z2 : rnd53 (α * (b : ℚ)) ≤ (b : ℚ) := rnd53_le_nat (by omega) (by positivity) (by
      have : (0 : ℚ) ≤ b := by positivity
      nlinarith)
    have z3 : (b : ℚ) ≤ 2 ^ 62 := by
      have : b ≤ 2 ^ 62 := by omega
      exact_mod_cast this
    rw [← f64_ceil_eq (oob := oob) (rnd53_nonneg (by positivity)) (z2.trans z3)]
    have hmin : min (a : ℚ) (b : ℚ) = b := min_eq_right (by exact_mod_cast hab)
    simp [f64Ops, hmin]
  have hb0 : (0 : ℚ) < b := by exact_mod_cast hb1
  rw [e]
  constructor
  · rw [Int.one_le_ceil_iff]
    exact rnd53_pos (by positivity)
  · rw [Int.ceil_le]
    have := rnd53_le_nat (n := b) (x := α * (b : ℚ)) (by omega) (by positivity) (by nlinarith)
    exact_mod_cast this

end Verif.Serve
