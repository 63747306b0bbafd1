import Verif.Proofs.LMMemory
import Verif.Props.LM
/- C91: the language model API on shared memory. -/
namespace Verif.Props
open Verif Verif.LMMem Relation

/-- The slices the caller gives are well formed; those given to ScoreWordIDs have no room behind their elements. -/
structure GivenOk (mem0 : Ref → Option (List Nat)) (given : Call → Prop) : Prop where
  ids : ∀ s, given (.scoreIDs s) → s.len = s.cap ∧ ∃ l, Holds mem0 s l
  next : ∀ s, given (.next s) → ∃ l, Holds mem0 s l

section
variable {grow : Nat → Nat} {m : LangModel} {getID : Bytes → Except Err Nat} {mem0 : Ref → Option (List Nat)} {given : Call → Prop} {σ : Sys}

/-- C91 (isolated): whatever calls run at the same time, and however the scheduler interleaves their accesses, a call that has returned has
returned what it returns alone, with slices as values: ScoreWordIDs and ScoreSentence the summands of the sentence score (C61), Next the
scorer of the context (C45), ScoreNext the score of that scorer. Missing for the full property: slices with room behind their elements given to
ScoreWordIDs (`C91_spare_capacity`). -/
theorem C91_isolated_partial (hg : ∀ n, n ≤ grow n) (hgiven : GivenOk mem0 given)
    (h : ReflTransGen (Sys.Step grow m getID given) ⟨mem0, []⟩ σ) {c : Call} {res : Result} (hmem : (c, .ret res) ∈ σ.threads) :
    match c with
    | .scoreIDs s => ∃ l, Holds mem0 s l ∧ res = .scores (m.sentenceScores l)
    | .scoreSentence t => res = .scores (sentenceAlone m getID t)
    | .next s => ∃ l r, Holds mem0 s l ∧ res = .scorer r ∧ NextOf σ.heap r (m.next l)
    | .scoreNext sc w => ∃ v, ScorerOf σ.heap sc v ∧ res = .score (v.score w) := by
  obtain ⟨M, W, hI⟩ := reach_inv hg hgiven.ids hgiven.next h
  obtain ⟨i, hi⟩ := List.getElem?_of_mem hmem
  have hs : spec mem0 m getID c res (M i) := hI.run i _ _ hi
  cases c with
  | scoreIDs s => exact hs
  | scoreSentence t => exact hs
  | next s =>
    obtain ⟨l, r, h1, h2, h3, _⟩ := hs
    refine ⟨l, r, h1, h2, ?_⟩
    generalize m.next l = y at h3
    unfold NextOf at h3 ⊢
    split <;> first | exact h3 | trivial | skip
    · exact ⟨h3.1.keep fun a ha => hI.sub i _ _ ha, h3.2⟩
    · rename_i h5 h6 h7
      split at h3
      · exact h5 _ _ rfl rfl
      · exact h6 rfl rfl
      · exact h7 _ _ rfl rfl
      · exact h3
  | scoreNext sc w =>
    obtain ⟨v, h1, h2⟩ := hs
    exact ⟨v, ⟨h1.1.keep fun a ha => hI.sub i _ _ ha, h1.2⟩, h2⟩

/-- C91 (the memory of the caller): no call changes an array that existed before. -/
theorem C91_caller_unchanged (hg : ∀ n, n ≤ grow n) (hgiven : GivenOk mem0 given)
    (h : ReflTransGen (Sys.Step grow m getID given) ⟨mem0, []⟩ σ) {r : Ref} {a : List Nat} (hr : mem0 r = some a) : σ.heap r = some a := by
  obtain ⟨M, W, hI⟩ := reach_inv hg hgiven.ids hgiven.next h
  exact (hI.base r a hr).1

/-- A scorer that was returned stays the same scorer, whoever uses it. -/
theorem C91_scorer_stable {σ' : Sys} (hg : ∀ n, n ≤ grow n) (hgiven : GivenOk mem0 given)
    (h : ReflTransGen (Sys.Step grow m getID given) ⟨mem0, []⟩ σ) (h' : ReflTransGen (Sys.Step grow m getID given) σ σ')
    {c : Call} {sc : Scorer} (hmem : (c, .ret (.scorer (.ok (some sc)))) ∈ σ.threads) {v : ScorerNext} (hv : ScorerOf σ.heap sc v) :
    ScorerOf σ'.heap sc v := by
  suffices H : (c, .ret (.scorer (.ok (some sc)))) ∈ σ'.threads ∧ ScorerOf σ'.heap sc v from H.2
  induction h' with
  | refl => exact ⟨hmem, hv⟩
  | @tail a b hab hstep ih =>
    obtain ⟨ih1, ih2⟩ := ih
    obtain ⟨M, W, hI⟩ := reach_inv hg hgiven.ids hgiven.next (h.trans hab)
    obtain ⟨i, hi⟩ := List.getElem?_of_mem ih1
    -- what the ended call knows about its scorer is what is in memory
    have hMi : M i sc.contextCounts.arr ≠ none := by
      have hs : spec mem0 m getID c _ (M i) := hI.run i _ _ hi
      cases c with
      | scoreIDs s => obtain ⟨l, _, e⟩ := hs; cases e
      | scoreSentence t => cases hs
      | next s =>
        obtain ⟨l, r, hl, e, hr, hf⟩ := hs
        cases e
        cases hy : m.next l with
        | error e => rw [hy] at hr; exact absurd hr id
        | ok y =>
          rw [hy] at hr
          cases y with
          | none => exact absurd hr id
          | some v => exact hr.1.ne
      | scoreNext sc' w' => obtain ⟨v, _, e⟩ := hs; cases e
    have hkeep : ∀ (n : Nat) (y : Prog Result) (c' : Call) (q : Ref), a.threads[n]? = some (c', y) → (∀ x, y ≠ .ret x) → q ∈ W n → n ≠ i := by
      intro n y c' q hn hy _ e
      subst e
      rw [hi] at hn
      cases hn
      exact hy _ rfl
    have hset : ∀ (n : Nat) (t : Call × Prog Result) (y : Prog Result) (c' : Call), a.threads[n]? = some (c', y) → (∀ x, y ≠ .ret x) →
        (c, .ret (.scorer (.ok (some sc)))) ∈ a.threads.set n t := by
      intro n t y c' hn hy
      have hne : n ≠ i := by
        rintro rfl
        rw [hi] at hn
        cases hn
        exact hy _ rfl
      exact List.mem_of_getElem? (i := i) (by rw [List.getElem?_set_ne hne]; exact hi)
    cases hstep with
    | scoreIDs _ => exact ⟨List.mem_append_left _ ih1, ih2⟩
    | scoreSentence => exact ⟨List.mem_append_left _ ih1, ih2⟩
    | next _ => exact ⟨List.mem_append_left _ ih1, ih2⟩
    | scoreNext _ => exact ⟨List.mem_append_left _ ih1, ih2⟩
    | @read n c' r i' k a' v' ht _ _ => exact ⟨hset n _ _ _ ht (by intro x; simp), ih2⟩
    | @write n c' r i' v' k a' ht ha _ =>
      refine ⟨hset n _ _ _ ht (by intro x; simp), ih2.1.keep fun b hb => ?_, ih2.2⟩
      obtain ⟨_, h0, _⟩ := hI.run n _ _ ht
      have hni := hkeep n _ _ r ht (by intro x; simp) h0
      have : sc.contextCounts.arr ≠ r := by
        rintro e
        rw [← e] at h0
        exact hMi (hI.apart n i _ hni h0)
      exact (Function.update_of_ne this _ _).trans hb
    | @alloc n c' size k r ht hr =>
      refine ⟨hset n _ _ _ ht (by intro x; simp), ih2.1.keep fun b hb => ?_, ih2.2⟩
      have : sc.contextCounts.arr ≠ r := by
        rintro e
        rw [e, hr] at hb; cases hb
      exact (Function.update_of_ne this _ _).trans hb

/-- C91 (Next, then ScoreNext): a scorer used by any number of goroutines gives the score after the context it was made for. -/
theorem C91_score_next (hg : ∀ n, n ≤ grow n) (hgiven : GivenOk mem0 given)
    (h : ReflTransGen (Sys.Step grow m getID given) ⟨mem0, []⟩ σ) {s : Slice} {sc : Scorer} {w : Nat} {res : Result}
    (h1 : (.next s, .ret (.scorer (.ok (some sc)))) ∈ σ.threads) (h2 : (.scoreNext sc w, .ret res) ∈ σ.threads) :
    ∃ l v, Holds mem0 s l ∧ m.next l = .ok (some v) ∧ res = .score (v.score w) := by
  obtain ⟨l, r, hl, e, hr⟩ := C91_isolated_partial hg hgiven h h1
  obtain ⟨v', hv', e'⟩ := C91_isolated_partial hg hgiven h h2
  cases e
  cases hy : m.next l with
  | error e => rw [hy] at hr; exact absurd hr id
  | ok y =>
    rw [hy] at hr
    cases y with
    | none => exact absurd hr id
    | some v =>
      refine ⟨l, v, hl, hy, ?_⟩
      have : v = v' := by
        obtain ⟨a1, a2, a3⟩ := v
        obtain ⟨b1, b2, b3⟩ := v'
        have q1 : a1 = b1 := hr.1.unique hv'.1
        have q2 : a2 = b2 := hr.2.1.symm.trans hv'.2.1
        have q3 : a3 = b3 := hr.2.2.symm.trans hv'.2.2
        subst q1; subst q2; subst q3; rfl
      rw [this]; exact e'

/-- The array a goroutine is about to access, and whether it writes. -/
inductive Accesses : Prog Result → Ref → Bool → Prop
  | read (r i k) : Accesses (.read r i k) r false
  | write (r i v k) : Accesses (.write r i v k) r true

/-- C91 (no data race): never are two goroutines about to access the same array, one of them writing. -/
theorem C91_no_race (hg : ∀ n, n ≤ grow n) (hgiven : GivenOk mem0 given)
    (h : ReflTransGen (Sys.Step grow m getID given) ⟨mem0, []⟩ σ) {i j : Nat} {c c' : Call} {x y : Prog Result} (hij : i ≠ j)
    (hi : σ.threads[i]? = some (c, x)) (hj : σ.threads[j]? = some (c', y)) {r : Ref} {w : Bool} (hx : Accesses x r true) :
    ¬ Accesses y r w := by
  obtain ⟨M, W, hI⟩ := reach_inv hg hgiven.ids hgiven.next h
  intro hy
  cases hx with
  | write _ n v k =>
    obtain ⟨a, h0, _⟩ := hI.run i _ _ hi
    have hno := hI.apart i j r hij h0
    cases hy with
    | read _ n' k' =>
      obtain ⟨a', _, h1, _⟩ := hI.run j _ _ hj
      rw [hno] at h1; cases h1
    | write _ n' v' k' =>
      obtain ⟨a', _, h1, _⟩ := hI.run j _ _ hj
      rw [hno] at h1; cases h1

/-- C91 (no panic): every access is to an element of an array; so a goroutine that has not returned can go on (if there is room for a new
array). -/
theorem C91_no_panic (hg : ∀ n, n ≤ grow n) (hgiven : GivenOk mem0 given)
    (h : ReflTransGen (Sys.Step grow m getID given) ⟨mem0, []⟩ σ) {c : Call} {x : Prog Result} (hx : (c, x) ∈ σ.threads) :
    match x with
    | .ret _ => True
    | .read r i _ => ∃ a, σ.heap r = some a ∧ i < a.length
    | .write r i _ _ => ∃ a, σ.heap r = some a ∧ i < a.length
    | .alloc _ _ => True := by
  obtain ⟨M, W, hI⟩ := reach_inv hg hgiven.ids hgiven.next h
  obtain ⟨i, hi⟩ := List.getElem?_of_mem hx
  have hw := hI.run i _ _ hi
  cases x with
  | ret => trivial
  | alloc => trivial
  | read r j k =>
    obtain ⟨a, v, h1, h2, _⟩ := hw
    exact ⟨a, hI.sub i r a h1, (List.getElem?_eq_some_iff.1 h2).1⟩
  | write r j v k =>
    obtain ⟨a, _, h1, h2, _⟩ := hw
    exact ⟨a, hI.sub i r a h1, h2⟩

end

/-! ### an execution -/

/-- The program alone, on a list of arrays: the next free address is the length of the list. -/
def LMMem.Prog.run {α : Type} : Prog α → List (List Nat) → Option (α × List (List Nat))
  | .ret a, mem => some (a, mem)
  | .read r i k, mem => ((mem[r]?).bind fun a => a[i]?).bind fun v => LMMem.Prog.run (k v) mem
  | .write r i v k, mem => (mem[r]?).bind fun a => if i < a.length then LMMem.Prog.run k (mem.set r (a.set i v)) else none
  | .alloc n k, mem => LMMem.Prog.run (k mem.length) (mem ++ [List.replicate n 0])

theorem run_reach {grow : Nat → Nat} {m : LangModel} {getID : Bytes → Except Err Nat} {given : Call → Prop} {c : Call}
    {ts : List (Call × Prog Result)} (x : Prog Result) : ∀ {mem mem' : List (List Nat)} {a : Result},
    LMMem.Prog.run x mem = some (a, mem') →
    ReflTransGen (Sys.Step grow m getID given) ⟨fun r => mem[r]?, ts ++ [(c, x)]⟩ ⟨fun r => mem'[r]?, ts ++ [(c, .ret a)]⟩ := by
  have hget : ∀ y : Prog Result, (ts ++ [(c, y)])[ts.length]? = some (c, y) := by intro y; simp
  have hset : ∀ y z : Prog Result, (ts ++ [(c, y)]).set ts.length (c, z) = ts ++ [(c, z)] := by intro y z; simp
  induction x with
  | ret b =>
    intro mem mem' a h
    cases h
    exact .refl
  | read r i k ih =>
    intro mem mem' a h
    unfold LMMem.Prog.run at h
    cases h1 : mem[r]? with
    | none => rw [h1] at h; cases h
    | some b =>
      cases h2 : b[i]? with
      | none => rw [h1] at h; simp [h2] at h
      | some v =>
        rw [h1] at h; simp only [Option.bind_some, h2] at h
        have := Sys.Step.read (grow := grow) (m := m) (getID := getID) (given := given) (σ := ⟨fun r => mem[r]?, ts ++ [(c, .read r i k)]⟩)
          (hget _) h1 h2
        rw [hset] at this
        exact .head this (ih v h)
  | write r i v k ih =>
    intro mem mem' a h
    unfold LMMem.Prog.run at h
    cases h1 : mem[r]? with
    | none => rw [h1] at h; cases h
    | some b =>
      rw [h1] at h; simp only [Option.bind_some] at h
      split at h
      · rename_i h2
        have := Sys.Step.write (grow := grow) (m := m) (getID := getID) (given := given) (σ := ⟨fun r => mem[r]?, ts ++ [(c, .write r i v k)]⟩)
          (hget _) h1 h2
        rw [hset] at this
        have e : (Function.update (fun r => mem[r]?) r (some (b.set i v))) = fun q => (mem.set r (b.set i v))[q]? := by
          funext q
          have hr := (List.getElem?_eq_some_iff.1 h1).1
          by_cases e : q = r
          · subst e; rw [Function.update_self, List.getElem?_set_self hr]
          · rw [Function.update_of_ne e, List.getElem?_set_ne (Ne.symm e)]
        simp only [e] at this
        exact .head this (ih h)
      · cases h
  | alloc n k ih =>
    intro mem mem' a h
    unfold LMMem.Prog.run at h
    have := Sys.Step.alloc (grow := grow) (m := m) (getID := getID) (given := given) (σ := ⟨fun r => mem[r]?, ts ++ [(c, .alloc n k)]⟩)
      (r := mem.length) (hget _) (List.getElem?_eq_none (Nat.le_refl _))
    rw [hset] at this
    have e : (Function.update (fun r => mem[r]?) mem.length (some (List.replicate n 0))) = fun q => (mem ++ [List.replicate n 0])[q]? := by
      funext q
      by_cases e : q = mem.length
      · subst e; rw [Function.update_self]; simp
      · rw [Function.update_of_ne e, List.getElem?_append]
        split
        · rfl
        · rename_i h
          rw [List.getElem?_eq_none (by omega), List.getElem?_eq_none (by simp; omega)]
    simp only [e] at this
    exact .head this (ih _ h)

/-! ### examples -/

/-- The capacity of a new array is twice the length. -/
def doubling (n : Nat) : Nat := 2 * n

/-- The n-grams of the sentence 1 2 3, with start symbol 1 and end symbol 3. -/
def sharedFiles : List (List (List Nat × Nat)) := [[([1], 1), ([2], 1), ([3], 1)], [([1, 2], 1), ([2, 3], 1)], [([1, 2, 3], 1)]]

def sharedModel : LangModel := ⟨match readModel sharedFiles with | .ok vs => vs | .error _ => [], 3, 1, 3⟩

def sharedIDs : Bytes → Except Err Nat := fun _ => .ok 2

/-- The caller has the word ids 2, 2. -/
def sharedMem : List (List Nat) := [[2, 2]]

/-- `ids` and `ids[:1]` -/
def allIDs : Slice := ⟨0, 0, 2, 2⟩
def firstID : Slice := ⟨0, 0, 1, 2⟩

/-- the calls with the slices of the caller -/
def sharedGiven : Call → Prop
  | .scoreIDs s => s = allIDs
  | .next s => s = firstID ∨ s = allIDs
  | _ => True

theorem shared_ok : GivenOk (fun r => sharedMem[r]?) sharedGiven where
  ids s h := by
    cases h
    exact ⟨rfl, [2, 2], [2, 2], rfl, by decide, by decide, rfl⟩
  next s h := by
    rcases h with rfl | rfl
    · exact ⟨[2], [2, 2], rfl, by decide, by decide, rfl⟩
    · exact ⟨[2, 2], [2, 2], rfl, by decide, by decide, rfl⟩

def scoresIn : Result → Option (List LMScore)
  | .scores (.ok l) => some l
  | _ => none

def scorerIn : Result → Option Scorer
  | .scorer (.ok (some sc)) => some sc
  | _ => none

def scoreIn : Result → Option LMScore
  | .score (.ok x) => some x
  | _ => none

theorem scoresIn_eq {r : Result} {l : List LMScore} (h : scoresIn r = some l) : r = .scores (.ok l) := by
  unfold scoresIn at h
  split at h
  · cases h; rfl
  · cases h

theorem scorerIn_eq {r : Result} {sc : Scorer} (h : scorerIn r = some sc) : r = .scorer (.ok (some sc)) := by
  unfold scorerIn at h
  split at h
  · cases h; rfl
  · cases h

theorem scoreIn_eq {r : Result} {x : LMScore} (h : scoreIn r = some x) : r = .score (.ok x) := by
  unfold scoreIn at h
  split at h
  · cases h; rfl
  · cases h

/-- One call after the other. -/
def exec (c : Call) (mem : List (List Nat)) : Option (Result × List (List Nat)) := LMMem.Prog.run (c.prog doubling sharedModel sharedIDs) mem

/-- A run with calls of all kinds: Next(ids[:1]), a score from its scorer, ScoreWordIDs(ids). -/
theorem shared_run : ((exec (.next firstID) sharedMem).bind fun p => (scorerIn p.1).bind fun sc =>
      (exec (.scoreNext sc 3) p.2).bind fun q => (exec (.scoreIDs allIDs) q.2).bind fun t =>
      (scoreIn q.1).bind fun x => (scoresIn t.1).map fun l => (x, l)) = some (.ratio 0 1 1, [.ratio 1 1 1, .ratio 2 1 3]) := by
  decide +kernel

/-- The hypotheses of the theorems are met by a state with finished calls of all kinds. -/
example : ∃ σ sc, ReflTransGen (Sys.Step doubling sharedModel sharedIDs sharedGiven) ⟨fun r => sharedMem[r]?, []⟩ σ ∧
    GivenOk (fun r => sharedMem[r]?) sharedGiven ∧ (∀ n, n ≤ doubling n) ∧
    (.next firstID, .ret (.scorer (.ok (some sc)))) ∈ σ.threads ∧ (.scoreNext sc 3, .ret (.score (.ok (.ratio 0 1 1)))) ∈ σ.threads ∧
    (.scoreIDs allIDs, .ret (.scores (.ok [.ratio 1 1 1, .ratio 2 1 3]))) ∈ σ.threads := by
  have h := shared_run
  obtain ⟨⟨r1, mem1⟩, h1, h⟩ := Option.bind_eq_some_iff.1 h
  obtain ⟨sc, h2, h⟩ := Option.bind_eq_some_iff.1 h
  obtain ⟨⟨r2, mem2⟩, h3, h⟩ := Option.bind_eq_some_iff.1 h
  obtain ⟨⟨r3, mem3⟩, h4, h⟩ := Option.bind_eq_some_iff.1 h
  obtain ⟨x, h5, h⟩ := Option.bind_eq_some_iff.1 h
  obtain ⟨l, h6, h⟩ := Option.map_eq_some_iff.1 h
  cases h
  cases scorerIn_eq h2
  cases scoreIn_eq h5
  cases scoresIn_eq h6
  have s1 := run_reach (grow := doubling) (m := sharedModel) (getID := sharedIDs) (given := sharedGiven) (c := .next firstID) (ts := []) _ h1
  have s2 := run_reach (grow := doubling) (m := sharedModel) (getID := sharedIDs) (given := sharedGiven) (c := .scoreNext sc 3)
    (ts := [(.next firstID, .ret (.scorer (.ok (some sc))))]) _ h3
  have s3 := run_reach (grow := doubling) (m := sharedModel) (getID := sharedIDs) (given := sharedGiven) (c := .scoreIDs allIDs)
    (ts := [(.next firstID, .ret (.scorer (.ok (some sc)))), (.scoreNext sc 3, .ret (.score (.ok (.ratio 0 1 1))))]) _ h4
  have b0 := Sys.Step.next (grow := doubling) (m := sharedModel) (getID := sharedIDs) (given := sharedGiven) (σ := ⟨fun r => sharedMem[r]?, []⟩)
    (s := firstID) (.inl rfl)
  have b1 := Sys.Step.scoreNext (grow := doubling) (m := sharedModel) (getID := sharedIDs) (given := sharedGiven)
    (σ := ⟨fun r => mem1[r]?, [(.next firstID, .ret (.scorer (.ok (some sc))))]⟩) (sc := sc) (w := 3) (List.mem_singleton.2 rfl)
  have b2 := Sys.Step.scoreIDs (grow := doubling) (m := sharedModel) (getID := sharedIDs) (given := sharedGiven)
    (σ := ⟨fun r => mem2[r]?, [(.next firstID, .ret (.scorer (.ok (some sc)))), (.scoreNext sc 3, .ret (.score (.ok (.ratio 0 1 1))))]⟩)
    (s := allIDs) rfl
  refine ⟨_, sc, ((ReflTransGen.head b0 s1).trans (ReflTransGen.head b1 s2)).trans (ReflTransGen.head b2 s3), shared_ok,
    fun n => by unfold doubling; omega, by simp, by simp, by simp⟩

/-- C91 (negation): ScoreWordIDs(ids[:1]) writes the end symbol over ids[1], so that a later ScoreWordIDs(ids) returns the score of another
sentence; both slices are well formed. -/
theorem C91_spare_capacity : ∃ (grow : Nat → Nat) (m : LangModel) (mem0 : Ref → Option (List Nat)) (ids first : Slice) (σ : Sys)
    (l : List Nat) (res : Result), (∀ n, n ≤ grow n) ∧ Holds mem0 ids l ∧ (∃ k, Holds mem0 first k) ∧
    ReflTransGen (Sys.Step grow m (fun _ => .ok 0) fun c => c = .scoreIDs ids ∨ c = .scoreIDs first) ⟨mem0, []⟩ σ ∧
    (.scoreIDs ids, .ret res) ∈ σ.threads ∧ res ≠ .scores (m.sentenceScores l) ∧ ¬ Holds σ.heap ids l := by
  have h : ((LMMem.Prog.run ((Call.scoreIDs firstID).prog doubling sharedModel fun _ => .ok 0) sharedMem).bind fun p =>
      (LMMem.Prog.run ((Call.scoreIDs allIDs).prog doubling sharedModel fun _ => .ok 0) p.2).bind fun q =>
      (scoresIn q.1).map fun l => (l, q.2[0]?)) = some ([.ratio 0 1 1, .ratio 1 1 1], some [2, 3]) := by decide +kernel
  obtain ⟨⟨r1, mem1⟩, h1, h⟩ := Option.bind_eq_some_iff.1 h
  obtain ⟨⟨r2, mem2⟩, h2, h⟩ := Option.bind_eq_some_iff.1 h
  obtain ⟨l, h3, h⟩ := Option.map_eq_some_iff.1 h
  obtain ⟨rfl, h0⟩ := Prod.mk.inj h
  cases scoresIn_eq h3
  have s1 := run_reach (grow := doubling) (m := sharedModel) (getID := fun _ => .ok 0)
    (given := fun c => c = .scoreIDs allIDs ∨ c = .scoreIDs firstID) (c := .scoreIDs firstID) (ts := []) _ h1
  have s2 := run_reach (grow := doubling) (m := sharedModel) (getID := fun _ => .ok 0)
    (given := fun c => c = .scoreIDs allIDs ∨ c = .scoreIDs firstID) (c := .scoreIDs allIDs) (ts := [(.scoreIDs firstID, .ret r1)]) _ h2
  have b0 := Sys.Step.scoreIDs (grow := doubling) (m := sharedModel) (getID := fun _ => .ok 0)
    (given := fun c => c = .scoreIDs allIDs ∨ c = .scoreIDs firstID) (σ := ⟨fun r => sharedMem[r]?, []⟩) (s := firstID) (.inr rfl)
  have b1 := Sys.Step.scoreIDs (grow := doubling) (m := sharedModel) (getID := fun _ => .ok 0)
    (given := fun c => c = .scoreIDs allIDs ∨ c = .scoreIDs firstID) (σ := ⟨fun r => mem1[r]?, [(.scoreIDs firstID, .ret r1)]⟩)
    (s := allIDs) (.inl rfl)
  refine ⟨doubling, sharedModel, fun r => sharedMem[r]?, allIDs, firstID, _, [2, 2], _, fun n => by unfold doubling; omega,
    ⟨[2, 2], rfl, by decide, by decide, rfl⟩, ⟨[2], [2, 2], rfl, by decide, by decide, rfl⟩,
    (ReflTransGen.head b0 s1).trans (ReflTransGen.head b1 s2), List.mem_append_right _ (List.mem_singleton.2 rfl), ?_, ?_⟩
  · intro e
    have e' : (match sharedModel.sentenceScores [2, 2] with | .ok l => some l | .error _ => none) = some [.ratio 0 1 1, .ratio 1 1 1] := by
      cases hs : sharedModel.sentenceScores [2, 2] with
      | error e' => rw [hs] at e; cases e
      | ok l => rw [hs] at e; cases e; rfl
    exact absurd e' (by decide +kernel)
  · rintro ⟨a, ha, _, _, h4⟩
    rw [show allIDs.arr = 0 from rfl] at ha
    have : some [2, 3] = some a := h0.symm.trans ha
    cases this
    exact absurd h4 (by decide)

/-- C91 (negation): two goroutines that score prefixes of the same ids race: both are about to write the same element. -/
theorem C91_prefix_race (grow : Nat → Nat) (m : LangModel) (getID : Bytes → Except Err Nat) (mem0 : Ref → Option (List Nat)) (s : Slice)
    (hs : s.len < s.cap) : ∃ σ, ReflTransGen (Sys.Step grow m getID fun c => c = .scoreIDs s) ⟨mem0, []⟩ σ ∧
      ∃ x y, σ.threads = [(.scoreIDs s, x), (.scoreIDs s, y)] ∧ Accesses x s.arr true ∧ Accesses y s.arr true := by
  have b0 := Sys.Step.scoreIDs (grow := grow) (m := m) (getID := getID) (given := fun c => c = .scoreIDs s) (σ := ⟨mem0, []⟩) (s := s) rfl
  have b1 := Sys.Step.scoreIDs (grow := grow) (m := m) (getID := getID) (given := fun c => c = .scoreIDs s)
    (σ := ⟨mem0, [(.scoreIDs s, (Call.scoreIDs s).prog grow m getID)]⟩) (s := s) rfl
  have ha : Accesses ((Call.scoreIDs s).prog grow m getID) s.arr true := by
    unfold Call.prog scoreWordIDs append
    simp only
    rw [if_pos hs]
    exact Accesses.write _ _ _ _
  exact ⟨_, .tail (.single b0) b1, _, _, rfl, ha, ha⟩

example : firstID.len < firstID.cap := by decide

end Verif.Props
