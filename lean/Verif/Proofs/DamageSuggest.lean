import Verif.Proofs.DamageMerge
import Verif.Proofs.SuggestFinal
/- `Suggest` on an index whose bytes are arbitrary. -/
namespace Verif.Damage
open Verif Spec Heap TopKQueue

/-! ### What the producer sends -/

theorem sendLoop_length {bMin bMax : Int} : ∀ (n : Nat) (i j : Int), (i - bMin + 1).toNat + (bMax - j + 1).toNat = n →
    (sendLoop bMin bMax i j).length = (i - bMin + 1).toNat + (bMax - j + 1).toNat := by
  intro n
  induction n using Nat.strong_induction_on with
  | _ n ih =>
    intro i j hn
    unfold sendLoop
    split
    · rename_i h
      rw [List.length_append, List.length_append, ih _ (by omega) (i - 1) (j + 1) rfl]
      split <;> split <;> simp <;> omega
    · rename_i h
      simp; omega

/-- After a value that may have an index, fewer values remain than fit into the channel. -/
theorem sendLoop_room {bMin bMax : Int} (hcap : bMin ≤ bMax) {b : Int} {rest : List Int} (hb : b ≤ bMax) :
    ∀ (n : Nat) (i j : Int), (i - bMin + 1).toNat + (bMax - j + 1).toNat = n → i < j → bMin ≤ j →
    (b :: rest) <:+ sendLoop bMin bMax i j → rest.length < (bMax - bMin + 1).toNat := by
  intro n
  induction n using Nat.strong_induction_on with
  | _ n ih =>
    intro i j hn hij hj hsuf
    by_cases hi : i ≤ bMax
    · have h1 := hsuf.length_le
      rw [sendLoop_length _ i j rfl] at h1
      simp only [List.length_cons] at h1
      omega
    · have e : sendLoop bMin bMax i j = i :: sendLoop bMin bMax (i - 1) (j + 1) := by
        rw [sendLoop, if_pos (by omega), if_pos (by omega), if_neg (by omega)]; rfl
      rw [e] at hsuf
      rcases List.suffix_cons_iff.1 hsuf with h | h
      · simp only [List.cons.injEq] at h; omega
      · exact ih _ (by omega) (i - 1) (j + 1) rfl (by omega) (by omega) h

section
variable {S : Type} [LinearOrder S] [Inhabited S] {Env : Type}

/-- What is needed of a call. -/
structure CallOk (c : SConf S Env) (K : Nat) : Prop where
  pos : 0 < K
  top : c.topK = K
  cap : c.bMin ≤ c.bMax
  mid : c.bMin ≤ (c.sizeA : Int) + 1
  get : ∀ b ∈ allSizes c, c.indices.get b ≠ none → b ≤ c.bMax
  search : ∀ b f, c.indices.get b = some f → ∀ (env : Env) (T : Int), T ≠ 0 → ∀ (q : TopKQueue S), (∃ M, q.Holds K M) →
    (∃ M, (f env (fuzzyCollect (c.score b)) T q).1.Holds K M) ∧ Answered (f env (fuzzyCollect (c.score b)) T q).2

/-- Local condition on a worker; `room` = "everything not yet received fits into the channel", `fin` = "the channel is
closed and empty". -/
def WD (c : SConf S Env) (K : Nat) (room fin : Prop) : Worker S → Prop
  | .idle => True
  | .got b => b ∈ allSizes c ∧ (b ≤ c.bMax → room)
  | .loaded b _ => b ∈ allSizes c ∧ (b ≤ c.bMax → room)
  | .found _ qq => (∃ M, qq.Holds K M) ∧ room
  | .merged => room
  | .raised => room
  | .done none => fin
  | .done (some e) => e.Reported ∧ room

omit [Inhabited S] in
theorem WD.mono {c : SConf S Env} {K : Nat} {room fin room' fin' : Prop} (h1 : room → room') (h2 : fin → fin') :
    ∀ {w : Worker S}, WD c K room fin w → WD c K room' fin' w
  | .idle, _ => trivial
  | .got _, h => ⟨h.1, fun hb => h1 (h.2 hb)⟩
  | .loaded _ _, h => ⟨h.1, fun hb => h1 (h.2 hb)⟩
  | .found _ _, h => ⟨h.1, h1 h.2⟩
  | .merged, h => h1 h
  | .raised, h => h1 h
  | .done none, h => h2 h
  | .done (some _), h => ⟨h.1, h1 h.2⟩

/-- Everything not yet received fits into the channel. -/
def Room (s : SState S) : Prop := (s.chan ++ s.toSend).length ≤ s.cap

/-- The channel is closed and empty. -/
def Drained (s : SState S) : Prop := s.closed = true ∧ s.chan = []

structure DInv (c : SConf S Env) (K : Nat) (s : SState S) : Prop where
  np : s.panicked = none
  queue : ∃ M, s.queue.Holds K M
  suf : (s.chan ++ s.toSend) <:+ allSizes c
  wk : ∀ w ∈ s.workers, WD c K (Room s) (Drained s) w
  lock : s.locked = true → ∃ i : Nat, s.workers[i]? = some .merged ∨ s.workers[i]? = some .raised
  closed : s.closed = true → s.toSend = []
  nworkers : s.workers.length = min 5 s.cap
  cap : s.cap = (c.bMax - c.bMin + 1).toNat

variable {c : SConf S Env} {K : Nat} (hc : CallOk c K)

include hc in
theorem dinv_start {s : SState S} (h : c.start = .ok s) : DInv c K s := by
  unfold SConf.start at h
  split at h
  · simp at h
  · obtain ⟨q0, e0⟩ := new_ok (S := S) K
    rw [hc.top, e0] at h
    simp only [Except.ok.injEq] at h
    subst h
    refine ⟨rfl, ⟨_, new_holds hc.pos e0⟩, by simp [allSizes], ?_, by simp, by simp, by simp, rfl⟩
    intro w hw
    rw [List.eq_of_mem_replicate hw]; trivial

omit [Inhabited S] in
theorem dlock_set {s : SState S} {i : Nat} {w w' : Worker S} (hi : DInv c K s) (hw : s.workers[i]? = some w)
    (h1 : w ≠ .merged) (h2 : w ≠ .raised) (hlk : s.locked = true) :
    ∃ j : Nat, (s.workers.set i w')[j]? = some .merged ∨ (s.workers.set i w')[j]? = some .raised := by
  obtain ⟨j, hj⟩ := hi.lock hlk
  have hne : i ≠ j := by
    rintro rfl
    rcases hj with hj | hj
    · exact h1 (by rw [hw] at hj; simpa using hj)
    · exact h2 (by rw [hw] at hj; simpa using hj)
  exact ⟨j, by rw [List.getElem?_set_ne hne]; exact hj⟩

omit [Inhabited S] in
theorem wk_set {ws : List (Worker S)} {room fin room' fin' : Prop} (h1 : room → room') (h2 : fin → fin')
    (h : ∀ w ∈ ws, WD c K room fin w) {i : Nat} {w' : Worker S} (hw' : WD c K room' fin' w') :
    ∀ w ∈ ws.set i w', WD c K room' fin' w := by
  intro w hw
  rcases List.mem_or_eq_of_mem_set hw with h' | rfl
  · exact (h w h').mono h1 h2
  · exact hw'

include hc in
theorem room_of_suffix {b : Int} {rest : List Int} (h : (b :: rest) <:+ allSizes c) (hb : b ≤ c.bMax) :
    rest.length ≤ (c.bMax - c.bMin + 1).toNat :=
  (sendLoop_room hc.cap hb _ _ _ rfl (by omega) hc.mid h).le

include hc in
theorem dinv_step {s s' : SState S} (hi : DInv c K s) (h : c.Step s s') : DInv c K s' := by
  obtain ⟨np, hq, suf, wk, lk, cl, nw, cp⟩ := id hi
  cases h with
  | send hnp hsend hcap =>
    rename_i b rest
    have e : s.chan ++ [b] ++ rest = s.chan ++ s.toSend := by rw [hsend]; simp
    have hr : Room { s with toSend := rest, chan := s.chan ++ [b] } = Room s := by
      unfold Room; dsimp only; rw [e]
    refine ⟨np, hq, by dsimp only; rw [e]; exact suf, ?_, lk, ?_, nw, cp⟩
    · intro w hw
      refine (wk w hw).mono (by rw [hr]; exact id) ?_
      rintro ⟨h1, _⟩
      have := cl h1
      rw [hsend] at this; simp at this
    · intro h; have := cl h; rw [hsend] at this; simp at this
  | handoff hnp hsend hch hwi =>
    rename_i b rest i
    have hs1 : (b :: rest) <:+ allSizes c := by rw [hch, hsend] at suf; exact suf
    refine ⟨np, hq, ?_, ?_, fun h => dlock_set hi hwi (by simp) (by simp) h, ?_, by simpa using nw, cp⟩
    · dsimp only; rw [hch]; exact (List.suffix_cons b rest).trans hs1
    · refine wk_set ?_ ?_ wk ⟨hs1.subset List.mem_cons_self, fun hb => ?_⟩
      · unfold Room; rw [hch, hsend]; simp only [List.nil_append, List.length_cons]; omega
      · exact id
      · unfold Room; dsimp only; rw [hch, cp]; exact room_of_suffix hc hs1 hb
    · intro h; have := cl h; rw [hsend] at this; simp at this
  | close hnp hsend hcl =>
    refine ⟨np, hq, suf, ?_, lk, fun _ => hsend, nw, cp⟩
    intro w hw
    refine (wk w hw).mono id ?_
    rintro ⟨h1, _⟩
    rw [hcl] at h1; simp at h1
  | recv hnp hch hwi =>
    rename_i b rest i
    have hs1 : (b :: (rest ++ s.toSend)) <:+ allSizes c := by rw [hch] at suf; exact suf
    refine ⟨np, hq, ?_, ?_, fun h => dlock_set hi hwi (by simp) (by simp) h, cl, by simpa using nw, cp⟩
    · exact (List.suffix_cons b _).trans hs1
    · refine wk_set ?_ ?_ wk ⟨hs1.subset List.mem_cons_self, fun hb => ?_⟩
      · unfold Room; rw [hch]; simp only [List.cons_append, List.length_cons]; omega
      · rintro ⟨_, h2⟩; rw [hch] at h2; simp at h2
      · unfold Room; dsimp only; rw [cp]; exact room_of_suffix hc hs1 hb
  | exit hnp hch hcl hwi =>
    rename_i i
    exact ⟨np, hq, suf, wk_set id id wk ⟨hcl, hch⟩, fun h => dlock_set hi hwi (by simp) (by simp) h, cl, by simpa using nw, cp⟩
  | load hnp hwi =>
    rename_i b i
    exact ⟨np, hq, suf, wk_set id id wk (wk (.got b) (List.mem_of_getElem? hwi)),
      fun h => dlock_set hi hwi (by simp) (by simp) h, cl, by simpa using nw, cp⟩
  | skip hnp hwi hsk =>
    exact ⟨np, hq, suf, wk_set id id wk trivial, fun h => dlock_set hi hwi (by simp) (by simp) h, cl, by simpa using nw, cp⟩
  | search env hnp hwi hsk hget hnew hres =>
    rename_i b a f q0 q' i
    have hT : c.thr a b ≠ 0 := fun h => hsk (.inl h)
    obtain ⟨w1, w2⟩ := wk _ (List.mem_of_getElem? hwi)
    have hs := hc.search b f hget env (c.thr a b) hT q0 ⟨_, new_holds hc.pos (by rw [← hc.top]; exact hnew)⟩
    rw [hres] at hs
    exact ⟨np, hq, suf, wk_set id id wk ⟨hs.1, w2 (hc.get b w1 (by rw [hget]; simp))⟩,
      fun h => dlock_set hi hwi (by simp) (by simp) h, cl, by simpa using nw, cp⟩
  | searchErr env hnp hwi hsk hget hnew hres hp =>
    rename_i b a f q0 q' e i
    have hT : c.thr a b ≠ 0 := fun h => hsk (.inl h)
    obtain ⟨w1, w2⟩ := wk _ (List.mem_of_getElem? hwi)
    have hs := hc.search b f hget env (c.thr a b) hT q0 ⟨_, new_holds hc.pos (by rw [← hc.top]; exact hnew)⟩
    rw [hres] at hs
    exact ⟨np, hq, suf, wk_set id id wk ⟨hs.2, w2 (hc.get b w1 (by rw [hget]; simp))⟩,
      fun h => dlock_set hi hwi (by simp) (by simp) h, cl, by simpa using nw, cp⟩
  | searchPanic env hnp hwi hsk hget hnew hres hp =>
    rename_i b a f q0 q' e i
    have hT : c.thr a b ≠ 0 := fun h => hsk (.inl h)
    have hs := hc.search b f hget env (c.thr a b) hT q0 ⟨_, new_holds hc.pos (by rw [← hc.top]; exact hnew)⟩
    rw [hres] at hs
    have := hs.2.1
    rw [hp] at this
    simp at this
  | commit hnp hwi hlk hmerge =>
    rename_i b qq g i
    obtain ⟨M, hM⟩ := hq
    obtain ⟨q', e1, e2⟩ := addAll_spec ((List.range qq.len).map qq.mem) hM
    have : s.queue.merge qq = .ok q' := e1
    rw [this] at hmerge
    simp only [Except.ok.injEq] at hmerge
    subst hmerge
    have hw := wk _ (List.mem_of_getElem? hwi)
    exact ⟨np, ⟨_, e2⟩, suf, wk_set id id wk (show WD c K (Room s) (Drained s) .merged from hw.2),
      fun _ => ⟨i, .inl (getElem?_set_self' hwi)⟩, cl, by simpa using nw, cp⟩
  | commitPanic hnp hwi hlk hmerge =>
    rename_i b qq e i
    obtain ⟨M, hM⟩ := hq
    obtain ⟨q', e1, e2⟩ := addAll_spec ((List.range qq.len).map qq.mem) hM
    have : s.queue.merge qq = .ok q' := e1
    rw [this] at hmerge
    simp at hmerge
  | raise hnp hwi =>
    rename_i i
    have hw := wk _ (List.mem_of_getElem? hwi)
    exact ⟨np, hq, suf, wk_set id id wk (show WD c K (Room s) (Drained s) .raised from hw),
      fun _ => ⟨i, .inr (getElem?_set_self' hwi)⟩, cl, by simpa using nw, cp⟩
  | unlock hnp hwi =>
    exact ⟨np, hq, suf, wk_set id id wk trivial, fun h => by simp at h, cl, by simpa using nw, cp⟩

include hc in
theorem dinv_reachable {s : SState S} (h : c.Reachable s) : DInv c K s := by
  induction h with
  | start h => exact dinv_start hc h
  | step _ h ih => exact dinv_step hc ih h

include hc in
/-- A reachable state is final or has a successor. -/
theorem dprogress [Nonempty Env] {s : SState S} (hr : c.Reachable s) : s.final ∨ ∃ s', c.Step s s' := by
  have hi := dinv_reachable hc hr
  have np := hi.np
  have hc0 := hc.cap
  have hc1 : 1 ≤ s.cap := by rw [hi.cap]; omega
  by_cases hall : ∀ w ∈ s.workers, w = .idle ∨ ∃ e, w = .done e
  · by_cases hidle : Worker.idle ∈ s.workers
    · right
      obtain ⟨i, hi'⟩ := List.mem_iff_getElem?.1 hidle
      cases hch : s.chan with
      | cons b rest => exact ⟨_, .recv np hch hi'⟩
      | nil =>
        by_cases hcl : s.closed = true
        · exact ⟨_, .exit np hch hcl hi'⟩
        · cases hsend : s.toSend with
          | nil => exact ⟨_, .close np hsend (by simpa using hcl)⟩
          | cons b rest => exact ⟨_, .send np hsend (by rw [hch]; exact hc1)⟩
    · have hdone : ∀ w ∈ s.workers, ∃ e, w = .done e := by
        intro w hw
        rcases hall w hw with rfl | h
        · exact absurd hw hidle
        · exact h
      by_cases hcl : s.closed = true
      · exact .inl ⟨np, hcl, hdone⟩
      · right
        have hlen : s.workers ≠ [] := by
          intro h
          have := hi.nworkers
          rw [h] at this
          simp only [List.length_nil] at this
          omega
        obtain ⟨w, hw⟩ := List.exists_mem_of_ne_nil _ hlen
        obtain ⟨e, rfl⟩ := hdone w hw
        have hwd := hi.wk _ hw
        cases e with
        | none => exact absurd hwd.1 hcl
        | some e =>
          have hroom : Room s := hwd.2
          cases hsend : s.toSend with
          | nil => exact ⟨_, .close np hsend (by simpa using hcl)⟩
          | cons b rest =>
            refine ⟨_, .send np hsend ?_⟩
            unfold Room at hroom
            rw [hsend] at hroom
            simp only [List.length_append, List.length_cons] at hroom
            omega
  · right
    push Not at hall
    obtain ⟨w, hw, h1, h2⟩ := hall
    obtain ⟨i, hi'⟩ := List.mem_iff_getElem?.1 hw
    cases w with
    | idle => exact absurd rfl h1
    | done e => exact absurd rfl (h2 e)
    | got b => exact ⟨_, .load np hi'⟩
    | loaded b a =>
      by_cases hsk : c.skips a b
      · exact ⟨_, .skip np hi' hsk⟩
      · cases hg : c.indices.get b with
        | none => exact absurd (.inr (.inr (.inr hg))) hsk
        | some f =>
          obtain ⟨q0, e0⟩ := new_ok (S := S) K
          rw [← hc.top] at e0
          obtain ⟨env⟩ := ‹Nonempty Env›
          cases hres : f env (fuzzyCollect (c.score b)) (c.thr a b) q0 with
          | mk q' o =>
            cases o with
            | none => exact ⟨_, .search env np hi' hsk hg e0 hres⟩
            | some e =>
              cases hp : e.isPanic with
              | false => exact ⟨_, .searchErr env np hi' hsk hg e0 hres hp⟩
              | true => exact ⟨_, .searchPanic env np hi' hsk hg e0 hres hp⟩
    | found b qq =>
      by_cases hlk : s.locked = true
      · obtain ⟨j, hj | hj⟩ := hi.lock hlk
        · exact ⟨_, .raise np hj⟩
        · exact ⟨_, .unlock np hj⟩
      · cases hm : s.queue.merge qq with
        | ok g => exact ⟨_, .commit np hi' (by simpa using hlk) hm⟩
        | error e => exact ⟨_, .commitPanic np hi' (by simpa using hlk) hm⟩
    | merged => exact ⟨_, .raise np hi'⟩
    | raised => exact ⟨_, .unlock np hi'⟩

include hc in
/-- An error returned by the call is an ordinary one. -/
theorem dresult {r : Except Err (List (Candidate S))} (h : SuggestReturns c r) : Good r := by
  cases h with
  | empty => exact good_ok _
  | run hz hre hf =>
    rename_i s
    have hi := dinv_reachable hc hre
    unfold SState.result
    split
    · rename_i e es heq
      have hm : e ∈ s.workers.filterMap Worker.err? := by rw [heq]; simp
      obtain ⟨w, hw, hwe⟩ := List.mem_filterMap.1 hm
      obtain ⟨e', rfl⟩ := hf.2.2 w hw
      have : e' = some e := hwe
      subst this
      exact good_err (hi.wk _ hw).1
    · exact good_ok _

include hc in
/-- The call ends under every schedule, and what it returns is a result or an ordinary error. -/
theorem dcall [Nonempty Env] (hz : c.sizeA ≠ 0) :
    ¬ SuggestPanics c ∧ ¬ SuggestBlocks c ∧ (∀ f : Nat → SState S, ¬ ∀ i, c.Step (f i) (f (i + 1))) ∧
      (∃ r, SuggestReturns c r) ∧ ∀ r, SuggestReturns c r → Good r := by
  have hc0 := hc.cap
  obtain ⟨s0, hs0⟩ : ∃ s0, c.start = .ok s0 := by
    unfold SConf.start
    rw [if_neg (by omega)]
    obtain ⟨q0, e0⟩ := TopKQueue.new_ok (S := S) K
    have : TopKQueue.new c.topK = .ok q0 := by rw [hc.top]; exact e0
    rw [this]
    exact ⟨_, rfl⟩
  refine ⟨?_, ?_, no_infinite_run, ?_, fun r hr => dresult hc hr⟩
  · rintro (⟨_, h⟩ | ⟨_, hre, h⟩)
    · rw [hs0] at h; simp at h
    · exact h (dinv_reachable hc hre).np
  · rintro ⟨_, s, hre, _, hnf, hns⟩
    rcases dprogress hc hre with h | ⟨s', h⟩
    · exact hnf h
    · exact hns s' h
  · have : ∀ (w : Nat) s, c.Reachable s → s.weight ≤ w → ∃ s', c.Reachable s' ∧ s'.final := by
      intro w
      induction w with
      | zero =>
        intro s hre hw
        rcases dprogress hc hre with h | ⟨s', h⟩
        · exact ⟨s, hre, h⟩
        · have := weight_step h; omega
      | succ w ih =>
        intro s hre hw
        rcases dprogress hc hre with h | ⟨s', h⟩
        · exact ⟨s, hre, h⟩
        · have := weight_step h
          exact ih s' (hre.step h) (by omega)
    obtain ⟨s', h2, h3⟩ := this _ s0 (.start hs0) le_rfl
    exact ⟨_, .run hz h2 h3⟩

omit [Inhabited S] in
/-- The fuzzy collector never fails. -/
theorem fuzzy_collects {K : Nat} (score : Nat → S) :
    Collects (fun q : TopKQueue S => ∃ M, q.Holds K M) (fuzzyCollect score) := by
  rintro q m ⟨M, hM⟩
  obtain ⟨q', e1, e2⟩ := add_spec hM m.position (score m.overlap)
  unfold fuzzyCollect
  rw [e1]
  exact ⟨⟨_, e2⟩, fun e h => by simp at h⟩

/-- A call on an opened index with arbitrary contents. -/
theorem callOk_of {F : FloatOps S} {M : Metric S} {ρ : Roaring} (R : ρ.Robust) {sort : List (PList ρ) → List (PList ρ)}
    (hs : ∀ r, (sort r).Perm r) (oi : OpenIndex) {q : List String} (hq : q.length ≤ MergeCandidate.maxOverlap) {α : S}
    (h1 : M.minY α q.length ≤ q.length) (h2 : q.length ≤ M.maxY α q.length) (h3 : M.minY α q.length < oi.size)
    {K : Nat} (hK : 1 ≤ K) : CallOk (suggestCall F M ρ sort oi q α K) K := by
  obtain ⟨c, hc⟩ : ∃ c, c = suggestCall F M ρ sort oi q α K := ⟨_, rfl⟩
  have e1 : c.bMin = M.minY α q.length := by rw [hc]; rfl
  have e2 : c.bMax = if M.maxY α q.length ≥ oi.size then (oi.size : Int) - 1 else M.maxY α q.length := by rw [hc]; rfl
  have e3 : c.sizeA = q.length := by rw [hc]; rfl
  have e4 : c.indices = builtIndices ρ sort oi q := by rw [hc]; rfl
  rw [← hc]
  refine ⟨hK, by rw [hc]; rfl, by rw [e1, e2]; split <;> omega, by rw [e1, e3]; omega, ?_, ?_⟩
  · intro b hb hget
    rw [allSizes, mem_sendLoop] at hb
    have hlt : b < oi.size := by
      rw [e4] at hget
      unfold builtIndices at hget
      dsimp only at hget
      split at hget
      · rename_i hb0
        by_contra hcon
        apply hget
        unfold OpenIndex.table
        unfold OpenIndex.size at hcon
        rw [List.getElem?_eq_none (by omega)]
        rfl
      · exact absurd rfl hget
    rw [e2]
    rw [e3, e2] at hb
    split
    · omega
    · rename_i hx
      rw [if_neg hx] at hb
      omega
  · intro b f hget env T hT qq hqq
    rw [e4] at hget
    unfold builtIndices at hget
    dsimp only at hget
    split at hget
    · cases ht : oi.table b.toNat with
      | none => rw [ht] at hget; simp at hget
      | some tab =>
        rw [ht] at hget
        simp only [Option.map_some, Option.some.injEq] at hget
        subst hget
        exact search_fine R (fuzzy_collects (K := K) (c.score b)) hs oi.docs env tab q hq T (.inl hT) qq hqq
    · simp at hget

end
end Verif.Damage
