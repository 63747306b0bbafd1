import Verif.Proofs.Suggest
import Verif.Spec.Suggest
/- The invariant of the Suggest transition system. -/
namespace Verif
open Spec Heap
open Verif.Props (packed)
open TopKQueue

section
variable {S : Type} [LinearOrder S] [Inhabited S] {Env : Type}

/-- What the suggester needs to know about the opened index: it answers like the list of documents. -/
structure SegmentsOk {κ : Type} (ix : SegIndices κ Env) (docs : List Doc) (q : List String) : Prop where
  card : ∀ d ∈ docs, d.terms ≠ [] → d.terms.length < ix.size
  range : ∀ b : Int, ix.get b ≠ none → 0 ≤ b ∧ b < ix.size
  none : ∀ b : Nat, ix.get b = none → ∀ d ∈ docs, d.terms.length = b → d.terms = []
  some : ∀ (b : Nat) f, ix.get b = some f → ∀ env collect (T : Nat), 1 ≤ T → ∀ k, ∃ out : List (Nat × Nat),
    out.Pairwise (fun a b => a.1 < b.1) ∧
    (∀ id m, (id, m) ∈ out ↔ ∃ d ∈ docs, d.id = id ∧ d.terms.length = b ∧ m = shared q d ∧ T ≤ m) ∧
    f env collect T k = feed collect k (packed out)

/-- The values the lower bound can take. -/
def Bound (c : SConf S Env) (α : S) : Prop :=
  α = c.similarity ∨ (c.similarity < α ∧ ∃ b o : Nat, 1 ≤ b ∧ b < c.indices.size ∧ 1 ≤ o ∧ o ≤ b ∧ o ≤ c.sizeA ∧
    α = c.score b o)

/-- What the goroutines need to know about the metric: the least cardinality and the thresholds are positive. -/
structure PosLaws (c : SConf S Env) : Prop where
  minY_pos : 1 ≤ c.bMin
  pos : ∀ α, Bound c α → ∀ b : Nat, 1 ≤ b → b < c.indices.size → 1 ≤ c.thr α b

/-- What the suggester needs to know about the metric; `acc b o` = "a document with `b` terms, `o` of them shared,
qualifies". -/
structure MetricLaws (c : SConf S Env) (acc : Nat → Nat → Prop) : Prop extends PosLaws c where
  acc_pos : ∀ b o, acc b o → 1 ≤ b
  bounds : ∀ b o : Nat, 1 ≤ b → b < c.indices.size → o ≤ b → o ≤ c.sizeA → acc b o →
    c.metric.minY c.similarity c.sizeA ≤ b ∧ (b : Int) ≤ c.metric.maxY c.similarity c.sizeA
  lower : ∀ b o : Nat, 1 ≤ b → b < c.indices.size → o ≤ b → o ≤ c.sizeA → acc b o → c.similarity ≤ c.score b o
  complete : ∀ α, Bound c α → ∀ b o : Nat, 1 ≤ b → b < c.indices.size → o ≤ b → o ≤ c.sizeA → acc b o →
    α ≤ c.score b o → c.thr α b ≤ o
  sound : ∀ α, Bound c α → ∀ b o : Nat, 1 ≤ b → b < c.indices.size → o ≤ b → o ≤ c.sizeA → c.thr α b ≤ o →
    (c.bMin ≤ b ∧ (b : Int) ≤ c.sizeA ∨ (c.sizeA : Int) + 1 ≤ b ∧ (b : Int) ≤ c.bMax) → acc b o

/-- The documents; the query may have repeated terms. -/
structure DocsAny (docs : List Doc) (q : List String) (sizeA : Nat) : Prop where
  ids : docs.Pairwise (fun a b => a.id < b.id)
  id32 : ∀ d ∈ docs, d.id < 2 ^ 32
  terms : ∀ d ∈ docs, d.terms.Nodup
  len : q.length = sizeA
  qlen : sizeA < 2 ^ 32

/-- … and the terms of the query are distinct. -/
structure DocsOk (docs : List Doc) (q : List String) (sizeA : Nat) : Prop extends DocsAny docs q sizeA where
  query : q.Nodup

theorem shared_le_query (q : List String) (d : Doc) : shared q d ≤ q.length := List.length_filter_le _ _

theorem shared_le_terms {q : List String} {d : Doc} (hq : q.Nodup) : shared q d ≤ d.terms.length := by
  have h1 : (q.filter (· ∈ d.terms)).Nodup := hq.filter _
  have h2 : (q.filter (· ∈ d.terms)) ⊆ d.terms := by
    intro x hx; simpa using (List.mem_filter.1 hx).2
  exact (List.subperm_of_subset h1 h2).length_le

variable (c : SConf S Env) (docs : List Doc) (q : List String)

/-- The result a document contributes. -/
def candOf (d : Doc) : Candidate S := ⟨d.id, c.score d.terms.length (shared q d)⟩

/-- What the search of segment `b` with the bound `α` finds. -/
def foundAt (b : Int) (α : S) : Multiset (Candidate S) :=
  (((docs.filter fun d => decide ((d.terms.length : Int) = b ∧ c.thr α b ≤ shared q d)).map (candOf c q)
    : List (Candidate S)) : Multiset (Candidate S))

variable {c docs q}

omit [LinearOrder S] [Inhabited S] in
/-- The documents found by a search, as a list. -/
theorem out_eq {b T : Nat} (hd : DocsAny docs q c.sizeA) {out : List (Nat × Nat)}
    (h1 : out.Pairwise (fun a b => a.1 < b.1))
    (h2 : ∀ id m, (id, m) ∈ out ↔ ∃ d ∈ docs, d.id = id ∧ d.terms.length = b ∧ m = shared q d ∧ T ≤ m) :
    out = (docs.filter fun d => decide (d.terms.length = b ∧ T ≤ shared q d)).map fun d => (d.id, shared q d) := by
  have h3 : ((docs.filter fun d => decide (d.terms.length = b ∧ T ≤ shared q d)).map
      fun d => (d.id, shared q d)).Pairwise (fun a b => a.1 < b.1) := by
    rw [List.pairwise_map]
    exact (hd.ids.filter _)
  refine List.Perm.eq_of_pairwise (fun a b _ _ h h' => absurd (h.trans h') (lt_irrefl _)) h1 h3 ?_
  rw [List.perm_ext_iff_of_nodup (h1.imp (fun h e => by rw [e] at h; exact lt_irrefl _ h))
    (h3.imp (fun h e => by rw [e] at h; exact lt_irrefl _ h))]
  rintro ⟨id, m⟩
  rw [h2]
  simp only [List.mem_map, List.mem_filter, decide_eq_true_eq, Prod.mk.injEq]
  constructor
  · rintro ⟨d, hd1, rfl, hd2, rfl, hd3⟩
    exact ⟨d, ⟨hd1, hd2, hd3⟩, rfl, rfl⟩
  · rintro ⟨d, ⟨hd1, hd2, hd3⟩, rfl, rfl⟩
    exact ⟨d, hd1, rfl, hd2, rfl, hd3⟩

/-- A search that is carried out succeeds and finds `foundAt`. -/
theorem search_found_of {K : Nat} (hK : 0 < K) (htop : c.topK = K) (hs : SegmentsOk c.indices docs q)
    (hd : DocsOk docs q c.sizeA) {b : Int} {α : S} (hpos : 1 ≤ c.thr α b) {f} (hf : c.indices.get b = some f)
    {q0 : TopKQueue S} (h0 : TopKQueue.new c.topK = .ok q0) (env : Env) :
    ∃ q', f env (fuzzyCollect (c.score b)) (c.thr α b) q0 = (q', none) ∧ q'.Holds K (foundAt c docs q b α) := by
  obtain ⟨b1, b2⟩ := hs.range b (by rw [hf]; simp)
  obtain ⟨n, rfl⟩ := Int.eq_ofNat_of_zero_le b1
  obtain ⟨T, hT⟩ := Int.eq_ofNat_of_zero_le (show 0 ≤ c.thr α (n : Int) by omega)
  rw [hT]
  obtain ⟨out, o1, o2, o3⟩ := hs.some n f hf env (fuzzyCollect (c.score n)) T (by omega) q0
  rw [o3]
  rw [htop] at h0
  have hout := out_eq hd.toDocsAny o1 o2
  obtain ⟨q', e, h⟩ := feed_fuzzy (c.score n) out (new_holds hK h0) (by
    intro x hx
    obtain ⟨d, d1, d2, d3, d4, d5⟩ := (o2 x.1 x.2).1 hx
    rw [← d2, d4]
    refine ⟨hd.id32 d d1, lt_of_le_of_lt (shared_le_query q d) ?_⟩
    rw [hd.len]; exact hd.qlen)
  refine ⟨q', e, ?_⟩
  rw [zero_add] at h
  convert h using 1
  unfold foundAt
  rw [hout, List.map_map]
  congr 1
  have hfil : (docs.filter fun d => decide ((d.terms.length : Int) = n ∧ c.thr α n ≤ shared q d))
      = docs.filter fun d => decide (d.terms.length = n ∧ T ≤ shared q d) := by
    apply List.filter_congr
    intro d _
    rw [hT]
    simp
  rw [hfil]
  apply List.map_congr_left
  intro d hd'
  simp only [List.mem_filter, decide_eq_true_eq] at hd'
  simp only [candOf, Function.comp, hd'.2.1]

/-- A search that is carried out succeeds and finds `foundAt`. -/
theorem search_found {K : Nat} (hK : 0 < K) (htop : c.topK = K) (hs : SegmentsOk c.indices docs q)
    (hd : DocsOk docs q c.sizeA) (hl : PosLaws c) {b : Int} {α : S} (hα : Bound c α)
    (hb : 1 ≤ b) {f} (hf : c.indices.get b = some f) {q0 : TopKQueue S} (h0 : TopKQueue.new c.topK = .ok q0)
    (env : Env) :
    ∃ q', f env (fuzzyCollect (c.score b)) (c.thr α b) q0 = (q', none) ∧ q'.Holds K (foundAt c docs q b α) := by
  obtain ⟨b1, b2⟩ := hs.range b (by rw [hf]; simp)
  obtain ⟨n, rfl⟩ := Int.eq_ofNat_of_zero_le b1
  exact search_found_of hK htop hs hd (hl.pos α hα n (by omega) (by omega)) hf h0 env

omit [Inhabited S] in
/-- A skipped segment contains nothing. -/
theorem skip_found (hs : SegmentsOk c.indices docs q)
    (hd : DocsOk docs q c.sizeA) (hl : PosLaws c) {b : Int} {α : S} (hα : Bound c α)
    (hb : 1 ≤ b) (h : c.skips α b) : foundAt c docs q b α = 0 := by
  unfold foundAt
  rw [Multiset.coe_eq_zero, List.map_eq_nil_iff, List.filter_eq_nil_iff]
  intro d hdm
  simp only [decide_eq_true_eq, not_and, not_le]
  intro hlen
  have hsz := hs.card d hdm (by intro e; rw [e] at hlen; simp at hlen; omega)
  have h1 := shared_le_query q d
  rw [hd.len] at h1
  have h2 := shared_le_terms (d := d) hd.query
  subst hlen
  have hpos := hl.pos α hα d.terms.length (by omega) hsz
  rcases h with h | h | h | h
  · omega
  · omega
  · omega
  · have := hs.none d.terms.length h d hdm rfl
    rw [this] at hb
    simp at hb

/-! ### The invariant -/

/-- The segment a worker is responsible for. -/
def Worker.held : Worker S → Multiset Int
  | .got b => {b}
  | .loaded b _ => {b}
  | .found b _ => {b}
  | _ => 0

/-- The segments all workers are responsible for. -/
def heldAll (ws : List (Worker S)) : Multiset Int := (ws.map Worker.held).sum

omit [LinearOrder S] [Inhabited S] in
theorem heldAll_set : ∀ {ws : List (Worker S)} {i : Nat} {w : Worker S}, ws[i]? = some w →
    ∃ R, heldAll ws = w.held + R ∧ ∀ w', heldAll (ws.set i w') = w'.held + R
  | [], i, w, h => by simp at h
  | x :: ws, 0, w, h => by
    simp only [List.getElem?_cons_zero, Option.some.injEq] at h
    subst h
    exact ⟨heldAll ws, by simp [heldAll], fun w' => by simp [heldAll]⟩
  | x :: ws, i + 1, w, h => by
    simp only [List.getElem?_cons_succ] at h
    obtain ⟨R, h1, h2⟩ := heldAll_set h
    refine ⟨x.held + R, ?_, fun w' => ?_⟩
    · have : heldAll (x :: ws) = x.held + heldAll ws := by simp [heldAll]
      rw [this, h1, ← add_assoc, ← add_assoc, add_comm x.held]
    · have : heldAll ((x :: ws).set (i + 1) w') = x.held + heldAll (ws.set i w') := by simp [heldAll]
      rw [this, h2, ← add_assoc, ← add_assoc, add_comm x.held]

/-- The committed results. -/
def committed (c : SConf S Env) (docs : List Doc) (q : List String) (dn : List (Int × S)) : Multiset (Candidate S) :=
  (dn.map fun x => foundAt c docs q x.1 x.2).sum

/-- Local condition on a worker. -/
def WOk (c : SConf S Env) (docs : List Doc) (q : List String) (K : Nat) (alpha : S) : Worker S → Prop
  | .loaded _ a => a ≤ alpha ∧ Bound c a
  | .found b qq => ∃ a, a ≤ alpha ∧ Bound c a ∧ qq.Holds K (foundAt c docs q b a)
  | .done e => e = none
  | _ => True

/-- All segments to be searched. -/
def allSizes (c : SConf S Env) : List Int := sendLoop c.bMin c.bMax c.sizeA (c.sizeA + 1)

structure Inv (c : SConf S Env) (docs : List Doc) (q : List String) (K : Nat) (s : SState S) : Prop where
  np : s.panicked = none
  bound : Bound c s.alpha
  hist : ∃ dn : List (Int × S),
    (s.toSend : Multiset Int) + (s.chan : Multiset Int) + heldAll s.workers + ((dn.map Prod.fst : List Int) : Multiset Int)
      = (allSizes c : Multiset Int) ∧
    (∀ x ∈ dn, x.2 ≤ s.alpha ∧ Bound c x.2) ∧ s.queue.Holds K (committed c docs q dn) ∧
    (s.alpha = c.similarity ∨ ∃ W ≤ committed c docs q dn, W.card = K ∧ ∀ w ∈ W, s.alpha ≤ w.score)
  wk : ∀ w ∈ s.workers, WOk c docs q K s.alpha w
  lock : s.locked = true → ∃ i : Nat, s.workers[i]? = some .merged ∨ s.workers[i]? = some .raised
  closed : s.closed = true → s.toSend = []
  fin : ∀ w ∈ s.workers, ∀ e, w = .done e → s.closed = true ∧ s.chan = []
  nworkers : s.workers.length = min 5 s.cap
  cap : s.cap = (c.bMax - c.bMin + 1).toNat
  chanle : s.chan.length ≤ s.cap

section
variable {K : Nat} (hK : 0 < K) (htop : c.topK = K) (hs : SegmentsOk c.indices docs q)
  (hd : DocsOk docs q c.sizeA) (hl : PosLaws c)

omit [Inhabited S] in
theorem Bound.ge {α : S} (h : Bound c α) : c.similarity ≤ α := by
  rcases h with rfl | ⟨h, _⟩
  · exact le_rfl
  · exact h.le

include hK htop in
theorem inv_start {s : SState S} (h : c.start = .ok s) : Inv c docs q K s := by
  unfold SConf.start at h
  split at h
  · simp at h
  · obtain ⟨q0, e0⟩ := new_ok (S := S) K
    rw [htop, e0] at h
    simp only [Except.ok.injEq] at h
    subst h
    refine ⟨rfl, .inl rfl, ⟨[], ?_, by simp, ?_, .inl rfl⟩, ?_, by simp, by simp, ?_, by simp, rfl, by simp⟩
    · have : ∀ n, heldAll (List.replicate n (Worker.idle (S := S))) = 0 := by
        intro n; simp [heldAll, Worker.held]
      simp [this, allSizes]
    · simpa [committed] using new_holds hK e0
    · intro w hw
      rw [List.eq_of_mem_replicate hw]; trivial
    · intro w hw e he
      rw [List.eq_of_mem_replicate hw] at he
      cases he

omit [Inhabited S] in
/-- Elements of the committed multiset. -/
theorem mem_committed {dn : List (Int × S)} {x : Candidate S} (h : x ∈ committed c docs q dn) :
    ∃ b α, (b, α) ∈ dn ∧ x ∈ foundAt c docs q b α := by
  unfold committed at h
  induction dn with
  | nil => simp at h
  | cons y dn ih =>
    simp only [List.map_cons, List.sum_cons, Multiset.mem_add] at h
    rcases h with h | h
    · exact ⟨y.1, y.2, List.mem_cons_self, h⟩
    · obtain ⟨b, α, h1, h2⟩ := ih h
      exact ⟨b, α, List.mem_cons_of_mem _ h1, h2⟩

omit [Inhabited S] in
include hl in
theorem one_le_of_mem_all {b : Int} (h : b ∈ allSizes c) : 1 ≤ b := by
  have := hl.minY_pos
  rw [allSizes, mem_sendLoop] at h
  omega

omit [LinearOrder S] [Inhabited S] in
theorem getElem?_set_self' {ws : List (Worker S)} {i : Nat} {w w' : Worker S} (h : ws[i]? = some w) :
    (ws.set i w')[i]? = some w' := by
  have : i < ws.length := (List.getElem?_eq_some_iff.1 h).1
  simp [this]

omit [Inhabited S] in
theorem lock_set {s : SState S} {i : Nat} {w w' : Worker S} (hi : Inv c docs q K s) (hw : s.workers[i]? = some w)
    (h1 : w ≠ .merged) (h2 : w ≠ .raised) (hlk : s.locked = true) :
    ∃ j : Nat, (s.workers.set i w')[j]? = some .merged ∨ (s.workers.set i w')[j]? = some .raised := by
  obtain ⟨j, hj⟩ := hi.lock hlk
  have hne : i ≠ j := by
    rintro rfl
    rcases hj with hj | hj
    · exact h1 (by rw [hw] at hj; simpa using hj)
    · exact h2 (by rw [hw] at hj; simpa using hj)
  exact ⟨j, by rw [List.getElem?_set_ne hne]; exact hj⟩

omit [Inhabited S] in
theorem WOk.mono {a a' : S} (h : a ≤ a') {w : Worker S} (hw : WOk c docs q K a w) : WOk c docs q K a' w := by
  cases w with
  | loaded b x => exact ⟨hw.1.trans h, hw.2⟩
  | found b x => obtain ⟨y, h1, h2, h3⟩ := hw; exact ⟨y, h1.trans h, h2, h3⟩
  | done e => exact hw
  | idle => trivial
  | got => trivial
  | merged => trivial
  | raised => trivial

omit [Inhabited S] in
theorem le_raise (a : S) (qq : TopKQueue S) : a ≤ SConf.raise a qq := by
  unfold SConf.raise
  split
  · split
    · rename_i h; exact h.le
    · exact le_rfl
  · exact le_rfl

include hK htop hs hd hl in
/-- Every transition keeps the invariant. -/
theorem inv_step {s s' : SState S} (hi : Inv c docs q K s) (h : c.Step s s') : Inv c docs q K s' := by
  obtain ⟨np, bd, ⟨dn, hz, hdn, hq, hal⟩, wk, lk, cl, fn, nw, cp, cle⟩ := id hi
  have mset : ∀ {i : Nat} {w' : Worker S}, WOk c docs q K s.alpha w' →
      ∀ w ∈ s.workers.set i w', WOk c docs q K s.alpha w := by
    intro i w' hw' w hw
    rcases List.mem_or_eq_of_mem_set hw with h | rfl
    · exact wk w h
    · exact hw'
  have fset : ∀ {i : Nat} {w' : Worker S}, (∀ e, w' ≠ .done e) →
      ∀ w ∈ s.workers.set i w', ∀ e, w = .done e → s.closed = true ∧ s.chan = [] := by
    intro i w' hw' w hw e he
    rcases List.mem_or_eq_of_mem_set hw with h | rfl
    · exact fn w h e he
    · exact absurd he (hw' e)
  have h1of : ∀ b, b ∈ heldAll s.workers → 1 ≤ b := by
    intro b hb
    apply one_le_of_mem_all hl
    have : b ∈ (allSizes c : Multiset Int) := by rw [← hz]; simp [hb]
    simpa using this
  cases h with
  | send hnp hsend hcap =>
    rename_i b rest
    refine ⟨np, bd, ⟨dn, ?_, hdn, hq, hal⟩, wk, lk, ?_, ?_, nw, cp, by simp; omega⟩
    · rw [← hz, hsend]
      simp only [← Multiset.coe_add, ← Multiset.cons_coe]
      simp only [Multiset.cons_add, Multiset.add_cons, Multiset.coe_nil, add_zero]
    · intro h; have := cl h; rw [hsend] at this; simp at this
    · intro w hw e he
      have := (fn w hw e he).1
      have := cl this
      rw [hsend] at this; simp at this
  | handoff hnp hsend hch hwi =>
    rename_i b rest i
    obtain ⟨R, r1, r2⟩ := heldAll_set hwi
    refine ⟨np, bd, ⟨dn, ?_, hdn, hq, hal⟩, mset trivial, lock_set hi hwi (by simp) (by simp), ?_, fset (by simp), by simpa using nw, cp, cle⟩
    · rw [← hz, hsend, r1]
      simp only [r2, Worker.held, zero_add, ← Multiset.cons_coe, ← Multiset.singleton_add]
      abel
    · intro h; have := cl h; rw [hsend] at this; simp at this
  | close hnp hsend hcl =>
    exact ⟨np, bd, ⟨dn, hz, hdn, hq, hal⟩, wk, lk, fun _ => hsend,
      fun w hw e he => ⟨rfl, (fn w hw e he).2⟩, nw, cp, cle⟩
  | recv hnp hch hwi =>
    rename_i b rest i
    obtain ⟨R, r1, r2⟩ := heldAll_set hwi
    refine ⟨np, bd, ⟨dn, ?_, hdn, hq, hal⟩, mset trivial, lock_set hi hwi (by simp) (by simp), cl, ?_, by simpa using nw, cp, by rw [hch] at cle; simp at cle ⊢; omega⟩
    · rw [← hz, hch, r1]
      simp only [r2, Worker.held, zero_add, ← Multiset.cons_coe, ← Multiset.singleton_add]
      abel
    · intro w hw e he
      have := fset (i := i) (w' := .got b) (by simp) w hw e he
      rw [hch] at this
      simp at this
  | exit hnp hch hcl hwi =>
    rename_i i
    obtain ⟨R, r1, r2⟩ := heldAll_set hwi
    refine ⟨np, bd, ⟨dn, ?_, hdn, hq, hal⟩, mset rfl, lock_set hi hwi (by simp) (by simp), cl, fun _ _ _ _ => ⟨hcl, hch⟩, by simpa using nw, cp, cle⟩
    rw [← hz, r1]
    simp only [r2, Worker.held]
  | load hnp hwi =>
    rename_i b i
    obtain ⟨R, r1, r2⟩ := heldAll_set hwi
    refine ⟨np, bd, ⟨dn, ?_, hdn, hq, hal⟩, mset ⟨le_rfl, bd⟩, lock_set hi hwi (by simp) (by simp), cl, fset (by simp), by simpa using nw, cp, cle⟩
    rw [← hz, r1]
    simp only [r2, Worker.held]
  | skip hnp hwi hsk =>
    rename_i b a i
    obtain ⟨R, r1, r2⟩ := heldAll_set hwi
    obtain ⟨w1, w2⟩ := wk _ (List.mem_of_getElem? hwi)
    have hb1 : 1 ≤ b := h1of b (by rw [r1]; simp [Worker.held])
    have h0 := skip_found hs hd hl w2 hb1 hsk
    have hcom : committed c docs q ((b, a) :: dn) = committed c docs q dn := by
      simp [committed, h0]
    refine ⟨np, bd, ⟨(b, a) :: dn, ?_, ?_, by rw [hcom]; exact hq, by rw [hcom]; exact hal⟩, mset trivial, lock_set hi hwi (by simp) (by simp), cl, fset (by simp), by simpa using nw, cp, cle⟩
    · rw [← hz, r1]
      simp only [r2, Worker.held, List.map_cons, zero_add, ← Multiset.cons_coe, ← Multiset.singleton_add]
      abel
    · intro x hx
      rcases List.mem_cons.1 hx with rfl | hx
      · exact ⟨w1, w2⟩
      · exact hdn x hx
  | search env hnp hwi hsk hget hnew hres =>
    rename_i b a f q0 q' i
    obtain ⟨R, r1, r2⟩ := heldAll_set hwi
    obtain ⟨w1, w2⟩ := wk _ (List.mem_of_getElem? hwi)
    have hb1 : 1 ≤ b := h1of b (by rw [r1]; simp [Worker.held])
    obtain ⟨q2, e2, e3⟩ := search_found hK htop hs hd hl w2 hb1 hget hnew env
    rw [e2, Prod.mk.injEq] at hres
    obtain ⟨rfl, _⟩ := hres
    refine ⟨np, bd, ⟨dn, ?_, hdn, hq, hal⟩, mset ⟨a, w1, w2, e3⟩, lock_set hi hwi (by simp) (by simp), cl, fset (by simp), by simpa using nw, cp, cle⟩
    rw [← hz, r1]
    simp only [r2, Worker.held]
  | searchErr env hnp hwi hsk hget hnew hres hp =>
    rename_i b a f q0 q' e i
    obtain ⟨R, r1, r2⟩ := heldAll_set hwi
    obtain ⟨w1, w2⟩ := wk _ (List.mem_of_getElem? hwi)
    have hb1 : 1 ≤ b := h1of b (by rw [r1]; simp [Worker.held])
    obtain ⟨q2, e2, e3⟩ := search_found hK htop hs hd hl w2 hb1 hget hnew env
    rw [e2] at hres
    simp at hres
  | searchPanic env hnp hwi hsk hget hnew hres hp =>
    rename_i b a f q0 q' e i
    obtain ⟨R, r1, r2⟩ := heldAll_set hwi
    obtain ⟨w1, w2⟩ := wk _ (List.mem_of_getElem? hwi)
    have hb1 : 1 ≤ b := h1of b (by rw [r1]; simp [Worker.held])
    obtain ⟨q2, e2, e3⟩ := search_found hK htop hs hd hl w2 hb1 hget hnew env
    rw [e2] at hres
    simp at hres
  | commit hnp hwi hlk hmerge =>
    rename_i b qq g i
    obtain ⟨R, r1, r2⟩ := heldAll_set hwi
    obtain ⟨a, w1, w2, w3⟩ := wk _ (List.mem_of_getElem? hwi)
    obtain ⟨g', e, hg⟩ := merge_spec hq w3
    rw [hmerge] at e
    cases e
    have hcom : committed c docs q ((b, a) :: dn) = committed c docs q dn + foundAt c docs q b a := by
      simp [committed, add_comm]
    refine ⟨np, bd, ⟨(b, a) :: dn, ?_, ?_, by rw [hcom]; exact hg, ?_⟩, mset trivial, fun _ => ⟨i, .inl (getElem?_set_self' hwi)⟩, cl, fset (by simp), by simpa using nw, cp, cle⟩
    · rw [← hz, r1]
      simp only [r2, Worker.held, List.map_cons, zero_add, ← Multiset.cons_coe, ← Multiset.singleton_add]
      abel
    · intro x hx
      rcases List.mem_cons.1 hx with rfl | hx
      · exact ⟨w1, w2⟩
      · exact hdn x hx
    · rcases hal with h | ⟨W, h1, h2, h3⟩
      · exact .inl h
      · exact .inr ⟨W, h1.trans (by rw [hcom]; exact Multiset.le_add_right _ _), h2, h3⟩
  | commitPanic hnp hwi hlk hmerge =>
    rename_i b qq e i
    obtain ⟨a, w1, w2, w3⟩ := wk _ (List.mem_of_getElem? hwi)
    obtain ⟨g', e, hg⟩ := merge_spec hq w3
    rw [hmerge] at e
    cases e
  | raise hnp hwi =>
    rename_i i
    obtain ⟨R, r1, r2⟩ := heldAll_set hwi
    have hle := le_raise s.alpha s.queue
    have key : SConf.raise s.alpha s.queue = s.alpha ∨
        ((∃ W ≤ committed c docs q dn, W.card = K ∧ ∀ w ∈ W, SConf.raise s.alpha s.queue ≤ w.score) ∧
          Bound c (SConf.raise s.alpha s.queue)) := by
      unfold SConf.raise
      cases hm : managerLowest s.queue with
      | none => exact .inl rfl
      | some l =>
        simp only
        split
        · rename_i hlt
          obtain ⟨W, h1, h2, h3, w, h4, h5⟩ := managerLowest_spec hq hm
          refine .inr ⟨⟨W, h1, h2, h3⟩, .inr ⟨lt_of_le_of_lt bd.ge hlt, ?_⟩⟩
          obtain ⟨b, α, m1, m2⟩ := mem_committed (Multiset.mem_of_le h1 h4)
          unfold foundAt at m2
          simp only [Multiset.mem_coe, List.mem_map, List.mem_filter, decide_eq_true_eq] at m2
          obtain ⟨d, ⟨d1, d2, d3⟩, d4⟩ := m2
          have hb1 : 1 ≤ b := by
            apply one_le_of_mem_all hl
            have : b ∈ (allSizes c : Multiset Int) := by
              rw [← hz]
              simp only [Multiset.mem_add, Multiset.mem_coe, List.mem_map]
              exact .inr ⟨_, m1, rfl⟩
            simpa using this
          have hsz := hs.card d d1 (by intro e; rw [e] at d2; simp at d2; omega)
          subst d2
          have hpos := hl.pos α (hdn _ m1).2 d.terms.length (by omega) hsz
          refine ⟨d.terms.length, shared q d, by omega, hsz, by omega, shared_le_terms hd.query, ?_, ?_⟩
          · rw [← hd.len]; exact shared_le_query q d
          · rw [← h5, ← d4]; rfl
        · exact .inl rfl
    refine ⟨np, ?_, ⟨dn, ?_, fun x hx => ⟨(hdn x hx).1.trans hle, (hdn x hx).2⟩, hq, ?_⟩, ?_, fun _ => ⟨i, .inr (getElem?_set_self' hwi)⟩, cl, fset (by simp), by simpa using nw, cp, cle⟩
    · rcases key with h | ⟨_, h⟩
      · rw [h]; exact bd
      · exact h
    · rw [← hz, r1]
      simp only [r2, Worker.held]
    · rcases key with h | ⟨h, _⟩
      · rw [h]; exact hal
      · exact .inr h
    · intro w hw
      exact WOk.mono hle (mset (i := i) (w' := .raised) trivial w hw)
  | unlock hnp hwi =>
    rename_i i
    obtain ⟨R, r1, r2⟩ := heldAll_set hwi
    refine ⟨np, bd, ⟨dn, ?_, hdn, hq, hal⟩, mset trivial, by simp, cl, fset (by simp), by simpa using nw, cp, cle⟩
    rw [← hz, r1]
    simp only [r2, Worker.held]

include hK htop hs hd hl in
theorem inv_reachable {s : SState S} (h : c.Reachable s) : Inv c docs q K s := by
  induction h with
  | start h => exact inv_start hK htop h
  | step _ h ih => exact inv_step hK htop hs hd hl ih h

end
end
end Verif
