import Verif.Proofs.PoolSearch
import Verif.Props.Index
/-!
Property theorems C84 (pkg/index: the pools of posting lists; pkg/merger: the pool of buffers; concurrent searches).

The pools are package variables: all searches of the process share them, whatever dictionary they are for. A `Job` is a search somebody
asks for. `Reachable s`: `s` is a state of the process after some goroutines were started and some steps were made, in any order, with
any choice of the pools (Verif/Model/Pool.lean).
-/
namespace Verif.Props
open Verif Verif.Pool Spec Relation

/-- A search: `Search(indexReader, terms, threshold, collector)` — pkg/index/searcher.go:28. `grow`: the growth of arrays by `append`;
`order`: which permutation `sort.Sort` makes of lists of these lengths. -/
structure Job (κ : Type) where
  docs : BytesInput
  table : Table
  terms : List String
  threshold : Int
  collect : κ → MergeCandidate → κ × CollectRes Err
  k : κ
  grow : Nat → Nat
  order : List Nat → List Nat
  perm : ∀ ns, (order ns).Perm (List.range ns.length)

/-- The program of the goroutine that makes the search. -/
def Job.prog {κ : Type} (ρ : Roaring) (j : Job κ) : P ρ (κ × Option Err) :=
  hSearch j.collect j.grow j.order j.docs j.table j.terms j.threshold j.k

/-- The process: goroutines that search, memory, pools. -/
abbrev Process (ρ : Roaring) (κ : Type) := Sys (Job κ) PoolName (Obj ρ) (κ × Option Err)

/-- One step of goroutine `i` (`none`: a start of a goroutine or the garbage collector). -/
abbrev Process.Step {ρ : Roaring} {κ : Type} (a : Option Nat) (s s' : Process ρ κ) : Prop :=
  Sys.Step (fun p v => v = newObj p) (Job.prog ρ) a s s'

/-- The process has been started, and some steps were made. -/
def Reachable {ρ : Roaring} {κ : Type} (s : Process ρ κ) : Prop :=
  ReflTransGen (fun s s' => ∃ a, Process.Step a s s') ⟨fun _ => none, fun _ => [], []⟩ s

section
variable {ρ : Roaring} {κ : Type}

/-- What a job returns when it is alone and nothing is shared (Verif/Model/Index.lean). -/
def Job.alone (ρ : Roaring) (j : Job κ) (stale : Nat → SkipList) : κ × Option Err :=
  search ρ (cpMerge j.collect (permSort j.order)) j.docs stale j.table j.terms j.threshold j.k

theorem job_wp (stale : Nat → SkipList) (j : Job κ) :
    wp okObj (j.prog ρ) (fun _ => none) (fun a _ => a = j.alone ρ stale) :=
  wp_mono (hSearch_spec j.perm stale) fun _ _ h => h.1

theorem reachable_inv (stale : Nat → SkipList) {s : Process ρ κ} (h : Reachable s) :
    ∃ owns, Inv okObj (fun (j : Job κ) a => a = j.alone ρ stale) s owns :=
  reach_inv (fun p v e => by rw [e]; exact newObj_ok p) (job_wp stale) h

/-- **C84.** Whatever searches run at the same time, however they are interleaved and whatever objects the pools hand out: a search that
has ended returned what it returns alone (whatever was left in the posting list objects by earlier searches, `stale`). -/
theorem C84_isolated {s : Process ρ κ} (h : Reachable s) {i : Nat} {j : Job κ} {res : κ × Option Err}
    (hi : s.threads[i]? = some (j, .ret res)) (stale : Nat → SkipList) : res = j.alone ρ stale := by
  obtain ⟨owns, hinv⟩ := reachable_inv stale h
  exact inv_result hinv hi

/-- **C84.** No data race: the object a goroutine accesses next is in no pool, and no other goroutine is about to access it or to put it
into a pool. -/
theorem C84_no_race {s : Process ρ κ} (h : Reachable s) {i : Nat} {j : Job κ} {r : Ref} {f : Obj ρ → Obj ρ}
    {k : Obj ρ → P ρ (κ × Option Err)} (hi : s.threads[i]? = some (j, .act r f k)) :
    (∀ p, r ∉ s.pool p) ∧ (∀ i' j' f' k', i' ≠ i → s.threads[i']? ≠ some (j', .act r f' k')) ∧
      ∀ i' j' p k', i' ≠ i → s.threads[i']? ≠ some (j', .put p r k') := by
  obtain ⟨owns, hinv⟩ := reachable_inv (fun _ => ⟨⟨[], 0⟩, 0, 0, 0, 0, 0, 0, false⟩) h
  exact inv_no_race hinv hi

/-- **C84.** No object is handed out twice: it is at most once in at most one pool, and what is in a pool has the type of the pool. -/
theorem C84_pools {s : Process ρ κ} (h : Reachable s) :
    (∀ p, (s.pool p).Nodup) ∧ (∀ p q r, r ∈ s.pool p → r ∈ s.pool q → p = q) ∧
    (∀ r ∈ s.pool .buf, ∃ a, s.heap r = some (.buf a)) ∧ (∀ r ∈ s.pool .vb, ∃ x, s.heap r = some (.list (.vb x))) ∧
    (∀ r ∈ s.pool .skip, ∃ x, s.heap r = some (.list (.skip x)) ∧ x.skippingGap = skippingGapSize) ∧
    ∀ r ∈ s.pool .bitmap, (∃ x, s.heap r = some (.list (.bitmap x))) ∨ s.heap r = some .newBitmap := by
  obtain ⟨owns, hinv⟩ := reachable_inv (fun _ => ⟨⟨[], 0⟩, 0, 0, 0, 0, 0, 0, false⟩) h
  refine ⟨hinv.once, fun p q r hp hq => ?_, fun r hr => ?_, fun r hr => ?_, fun r hr => ?_, fun r hr => ?_⟩
  · by_contra hc; exact hinv.apart p q r hc hp hq
  · obtain ⟨⟨v, h1, a, rfl⟩, _⟩ := hinv.pooled .buf r hr
    exact ⟨a, h1⟩
  · obtain ⟨⟨v, h1, x, rfl, h2⟩, _⟩ := hinv.pooled .vb r hr
    cases x with
    | vb x => exact ⟨x, h1⟩
    | skip x => simp [tag] at h2
    | bitmap x => simp [tag] at h2
  · obtain ⟨⟨v, h1, x, rfl, h2⟩, _⟩ := hinv.pooled .skip r hr
    cases x with
    | skip x => exact ⟨x, h1, by simpa [tag] using h2⟩
    | vb x => simp [tag] at h2
    | bitmap x => simp [tag] at h2
  · obtain ⟨⟨v, h1, hv⟩, _⟩ := hinv.pooled .bitmap r hr
    rcases hv with ⟨x, rfl, h2⟩ | rfl
    · cases x with
      | bitmap x => exact .inl ⟨x, h1⟩
      | vb x => simp [tag] at h2
      | skip x => simp [tag] at h2
    · exact .inr h1

/-- **C84.** A goroutine is never stuck: from every state it can run to its end without the others. -/
theorem C84_ends {s : Process ρ κ} (h : Reachable s) {i : Nat} {j : Job κ} {x : P ρ (κ × Option Err)}
    (hi : s.threads[i]? = some (j, x)) :
    ∃ s' res, ReflTransGen (Process.Step (some i)) s s' ∧ s'.threads[i]? = some (j, .ret res) := by
  obtain ⟨owns, hinv⟩ := reachable_inv (fun _ => ⟨⟨[], 0⟩, 0, 0, 0, 0, 0, 0, false⟩) h
  exact inv_ends (fresh := fun p v => v = newObj p) (fun p v e => by rw [e]; exact newObj_ok p) (fun p => ⟨_, rfl⟩) (job_wp _) x hinv (reach_bounded h) hi

/-- **C84.** In no run does a goroutine make infinitely many steps. -/
theorem C84_finite {σ : Nat → Process ρ κ} {a : Nat → Option Nat} (h : ∀ n, Process.Step (a n) (σ n) (σ (n + 1))) (i : Nat) :
    ∃ N, ∀ n, N ≤ n → a n ≠ some i := finitely_many h i

/-- **C84.** With the meaning of the index: a search of documents with `c` terms, with threshold `T`, gives its collector the ids of the
documents that share `T` terms with the query, whatever runs at the same time. -/
theorem C84_answer (L : ρ.Lawful) {G : Gob} (LG : G.Lawful) {docs : List Doc} (hd : GoodDocs docs) (hf : FirstNonempty docs)
    {oi : OpenIndex} (hoi : IndexOf ρ G docs oi) {c : Nat} {j : Job κ} (hdocs : j.docs = oi.docs) (htab : oi.table c = some j.table)
    (hq : FewCommon docs j.terms) (hT : 1 ≤ j.threshold) {s : Process ρ κ} (h : Reachable s) {i : Nat} {res : κ × Option Err}
    (hi : s.threads[i]? = some (j, .ret res)) :
    ∃ out : List (Nat × Nat), out.Pairwise (fun a b => a.1 < b.1) ∧
      (∀ id m, (id, m) ∈ out ↔ ∃ d ∈ docs, d.id = id ∧ d.terms.length = c ∧
        m = (j.terms.filter (· ∈ d.terms)).length ∧ j.threshold ≤ m) ∧
      res = feed j.collect j.k (packed out) := by
  obtain ⟨T, hT'⟩ : ∃ T : Nat, j.threshold = T := ⟨j.threshold.toNat, by omega⟩
  have stale : Nat → SkipList := fun _ => ⟨⟨[], 0⟩, 0, 0, 0, 0, 0, 0, false⟩
  obtain ⟨out, h1, h2, h3⟩ := (C24_search L LG j.collect (permSort j.order) (permSort_perm j.perm) _ (.inl rfl) hd hf hoi c).2 j.table htab
    stale j.terms hq T (by omega) j.k
  refine ⟨out, h1, fun id m => ?_, ?_⟩
  · rw [h2, hT']
    simp only [Int.ofNat_le]
  · rw [C84_isolated h hi stale, ← h3]
    unfold Job.alone
    rw [hdocs, hT']

/-- A collector that keeps what it gets. -/
def keepAll (k : List MergeCandidate) (c : MergeCandidate) : List MergeCandidate × CollectRes Err := (k ++ [c], .ok)

theorem feed_keepAll (l : List MergeCandidate) : ∀ k, feed keepAll k l = (k ++ l, none) := by
  induction l with
  | nil => intro k; simp [feed]
  | cons x l ih => intro k; simp only [feed, keepAll]; rw [ih]; simp

theorem Reachable.spawn {s : Process ρ κ} (h : Reachable s) (j : Job κ) :
    Reachable ({ s with threads := s.threads ++ [(j, j.prog ρ)] } : Process ρ κ) := .tail h ⟨none, .spawn j⟩

theorem Reachable.steps {s s' : Process ρ κ} (h : Reachable s) {a : Option Nat} (hs : ReflTransGen (Process.Step a) s s') :
    Reachable s' := by
  induction hs with
  | refl => exact h
  | tail _ hs ih => exact .tail ih ⟨a, hs⟩

theorem steps_other {s s' : Process ρ κ} {a : Option Nat} (hs : ReflTransGen (Process.Step a) s s') {i : Nat} (ha : a ≠ some i)
    {t : Job κ × P ρ (κ × Option Err)} (hi : s.threads[i]? = some t) : s'.threads[i]? = some t := by
  induction hs with
  | refl => exact hi
  | tail _ hs ih => exact step_other hs ha ih

/-- Non-vacuity of C84: two searches on the example index, `["ab", "bc"]` with threshold 1 and `["bc", "cd"]` with threshold 2, started
before either has made a step; a state in which both have ended is reachable, and there the first has found document 0 with two and
document 1 with one term, the second document 1 (with two). -/
example : ∃ (ρ : Roaring) (s : Process ρ (List MergeCandidate)) (j1 j2 : Job (List MergeCandidate)),
    j1.terms = ["ab", "bc"] ∧ j2.terms = ["bc", "cd"] ∧ Reachable s ∧
    s.threads[0]? = some (j1, .ret (packed [(0, 2), (1, 1)], none)) ∧ s.threads[1]? = some (j2, .ret (packed [(1, 2)], none)) := by
  obtain ⟨ρ, L, G, LG, oi, hoi⟩ := example_indexOf
  obtain ⟨hd, hf⟩ := exampleDocs_good
  have htab : ∃ tab, oi.table 2 = some tab := by
    cases ht : oi.table 2 with
    | some tab => exact ⟨tab, rfl⟩
    | none =>
      have := (C24_search L LG keepAll id (fun _ => .refl _) _ (.inl rfl) hd hf hoi 2).1 ht ⟨0, ["ab", "bc"]⟩ (by simp [exampleDocs]) rfl
      cases this
  obtain ⟨tab, ht⟩ := htab
  have hperm : ∀ ns : List Nat, (List.range ns.length).Perm (List.range ns.length) := fun _ => .refl _
  let j1 : Job (List MergeCandidate) := ⟨oi.docs, tab, ["ab", "bc"], 1, keepAll, [], fun n => n, fun ns => List.range ns.length, hperm⟩
  let j2 : Job (List MergeCandidate) := ⟨oi.docs, tab, ["bc", "cd"], 2, keepAll, [], fun n => n, fun ns => List.range ns.length, hperm⟩
  have h0 : Reachable (⟨fun _ => none, fun _ => [], []⟩ : Process ρ (List MergeCandidate)) := .refl
  have h2 := (h0.spawn j1).spawn j2
  obtain ⟨s1, r1, hs1, hr1⟩ := C84_ends h2 (i := 1) (j := j2) (x := j2.prog ρ) rfl
  have h3 := h2.steps hs1
  obtain ⟨s2, r2, hs2, hr2⟩ := C84_ends h3 (i := 0) (j := j1) (x := j1.prog ρ) (steps_other hs1 (by simp) rfl)
  have h4 := h3.steps hs2
  have hr1' := steps_other hs2 (i := 1) (by simp) hr1
  have key : ∀ (out l : List (Nat × Nat)), out.Pairwise (fun a b => a.1 < b.1) → l.Pairwise (fun a b => a.1 < b.1) →
      (∀ x, x ∈ out ↔ x ∈ l) → out = l := by
    intro out l h1 h2 h3
    refine List.Perm.eq_of_pairwise (le := fun a b => a.1 < b.1) (fun a b _ _ h h' => absurd h (by omega)) h1 h2 ?_
    refine (List.perm_ext_iff_of_nodup ?_ ?_).2 h3
    · exact h1.imp fun h e => by rw [e] at h; omega
    · exact h2.imp fun h e => by rw [e] at h; omega
  have e1 : r2 = (packed [(0, 2), (1, 1)], none) := by
    obtain ⟨out, p1, p2, p3⟩ := C84_answer L LG hd hf hoi (c := 2) (j := j1) rfl ht (.of_short (by simp [j1])) (by simp [j1]) h4 hr2
    rw [key out [(0, 2), (1, 1)] p1 (by simp) ?_] at p3
    · rw [p3]; exact feed_keepAll _ _
    · rintro ⟨id, m⟩
      rw [p2]
      simp only [exampleDocs, j1, List.mem_cons, List.not_mem_nil, or_false, Prod.mk.injEq]
      constructor
      · rintro ⟨d, rfl | rfl | rfl | rfl, rfl, h1, rfl, h2⟩ <;> simp_all
      · rintro (⟨rfl, rfl⟩ | ⟨rfl, rfl⟩)
        · exact ⟨⟨0, ["ab", "bc"]⟩, by simp, rfl, rfl, by decide, by decide⟩
        · exact ⟨⟨1, ["bc", "cd"]⟩, by simp, rfl, rfl, by decide, by decide⟩
  have e2 : r1 = (packed [(1, 2)], none) := by
    obtain ⟨out, p1, p2, p3⟩ := C84_answer L LG hd hf hoi (c := 2) (j := j2) rfl ht (.of_short (by simp [j2])) (by simp [j2]) h4 hr1'
    rw [key out [(1, 2)] p1 (by simp) ?_] at p3
    · rw [p3]; exact feed_keepAll _ _
    · rintro ⟨id, m⟩
      rw [p2]
      simp only [exampleDocs, j2, List.mem_cons, List.not_mem_nil, or_false, Prod.mk.injEq]
      constructor
      · rintro ⟨d, rfl | rfl | rfl | rfl, rfl, h1, rfl, h2⟩ <;> simp_all
      · rintro ⟨rfl, rfl⟩
        exact ⟨⟨1, ["bc", "cd"]⟩, by simp, rfl, rfl, by decide, by decide⟩
  refine ⟨ρ, s2, j1, j2, rfl, rfl, h4, ?_, ?_⟩
  · rw [← e1]; exact hr2
  · rw [← e2]; exact hr1'

end
end Verif.Props
