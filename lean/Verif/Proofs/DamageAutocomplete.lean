import Verif.Proofs.DamageMerge
import Verif.Proofs.Autocomplete
/- `Autocomplete` on an index whose bytes are arbitrary. -/
namespace Verif.Damage
open Verif Spec Heap TopKQueue

section
variable {κ S Env : Type} [LinearOrder S] [Inhabited S]

/-- What is needed of a call: `P` holds of the global queue, `Q` of the collectors. -/
structure ACallOk (c : AConf κ S Env) (P : TopKQueue S → Prop) (Q : κ → Prop) : Prop where
  start : ∃ q, TopKQueue.new c.limit = .ok q ∧ P q
  search : ∀ (b : Nat) f, c.indices.get b = some f → ∀ env : Env,
    Q (f env c.collect c.termsLen c.create).1 ∧ Answered (f env c.collect c.termsLen c.create).2
  merge : ∀ g k, P g → Q k → ∃ g', c.merge g k = .ok g' ∧ P g'

/-- Local condition on a goroutine. -/
def AD (c : AConf κ S Env) (Q : κ → Prop) : AWorker κ → Prop
  | .started b => c.indices.get b ≠ none
  | .found _ k => Q k
  | .done none => True
  | .done (some e) => e.Reported

structure ADInv (c : AConf κ S Env) (P : TopKQueue S → Prop) (Q : κ → Prop) (s : AState κ S) : Prop where
  np : s.panicked = none
  queue : P s.queue
  wk : ∀ w ∈ s.workers, AD c Q w

variable {c : AConf κ S Env} {P : TopKQueue S → Prop} {Q : κ → Prop} (hc : ACallOk c P Q)

include hc in
theorem adinv_step {s s' : AState κ S} (hi : ADInv c P Q s) (h : c.Step s s') : ADInv c P Q s' := by
  obtain ⟨np, hq, wk⟩ := hi
  have wset : ∀ {i : Nat} {w' : AWorker κ}, AD c Q w' → ∀ w ∈ s.workers.set i w', AD c Q w := by
    intro i w' hw' w hw
    rcases List.mem_or_eq_of_mem_set hw with h | rfl
    · exact wk w h
    · exact hw'
  cases h with
  | skip hnp hsp hg => exact ⟨np, hq, wk⟩
  | spawn hnp hsp hg =>
    refine ⟨np, hq, ?_⟩
    intro w hw
    rcases List.mem_append.1 hw with hw | hw
    · exact wk w hw
    · simp only [List.mem_singleton] at hw
      subst hw
      exact hg
  | search env hnp hw hg hres =>
    rename_i b f items i
    have := hc.search b f hg env
    rw [hres] at this
    exact ⟨np, hq, wset this.1⟩
  | searchErr env hnp hw hg hres hp =>
    rename_i b f items e i
    have := hc.search b f hg env
    rw [hres] at this
    exact ⟨np, hq, wset this.2⟩
  | searchPanic env hnp hw hg hres hp =>
    rename_i b f items e i
    have := hc.search b f hg env
    rw [hres] at this
    have h1 := this.2.1
    rw [hp] at h1; simp at h1
  | commit hnp hw hm =>
    rename_i b items g i
    obtain ⟨g', e1, e2⟩ := hc.merge s.queue items hq (wk _ (List.mem_of_getElem? hw))
    rw [e1] at hm
    simp only [Except.ok.injEq] at hm
    exact ⟨np, hm ▸ e2, wset trivial⟩
  | commitPanic hnp hw hm =>
    rename_i b items e i
    obtain ⟨g', e1, e2⟩ := hc.merge s.queue items hq (wk _ (List.mem_of_getElem? hw))
    rw [e1] at hm; simp at hm

include hc in
theorem adinv_reachable {s : AState κ S} (h : c.Reachable s) : ADInv c P Q s := by
  induction h with
  | start h =>
    obtain ⟨q, e1, e2⟩ := hc.start
    unfold AConf.start at h
    rw [e1] at h
    simp only [Except.ok.injEq] at h
    subst h
    exact ⟨rfl, e2, by simp⟩
  | step _ h ih => exact adinv_step hc ih h

include hc in
theorem adprogress [Nonempty Env] {s : AState κ S} (hr : c.Reachable s) : s.final ∨ ∃ s', c.Step s s' := by
  have hi := adinv_reachable hc hr
  have np := hi.np
  cases hsp : s.toSpawn with
  | cons b rest =>
    right
    by_cases hg : c.indices.get b = none
    · exact ⟨_, .skip np hsp hg⟩
    · exact ⟨_, .spawn np hsp hg⟩
  | nil =>
    by_cases hall : ∀ w ∈ s.workers, ∃ e, w = .done e
    · exact .inl ⟨np, hsp, hall⟩
    · right
      push Not at hall
      obtain ⟨w, hw, hne⟩ := hall
      obtain ⟨i, hi'⟩ := List.mem_iff_getElem?.1 hw
      cases w with
      | done e => exact absurd rfl (hne e)
      | started b =>
        have hg : c.indices.get b ≠ none := hi.wk _ hw
        obtain ⟨f, hf⟩ := Option.ne_none_iff_exists'.1 hg
        obtain ⟨env⟩ := ‹Nonempty Env›
        cases hres : f env c.collect c.termsLen c.create with
        | mk k o =>
          cases o with
          | none => exact ⟨_, .search env np hi' hf hres⟩
          | some e =>
            cases hp : e.isPanic with
            | false => exact ⟨_, .searchErr env np hi' hf hres hp⟩
            | true => exact ⟨_, .searchPanic env np hi' hf hres hp⟩
      | found b items =>
        cases hm : c.merge s.queue items with
        | ok g => exact ⟨_, .commit np hi' hm⟩
        | error e => exact ⟨_, .commitPanic np hi' hm⟩

include hc in
theorem adresult {r : Except Err (List (Candidate S))} (h : AutocompleteReturns c r) : Good r := by
  obtain ⟨s, hre, hf, rfl⟩ := h
  have hi := adinv_reachable hc hre
  unfold AState.result
  split
  · rename_i e es heq
    have hm : e ∈ s.workers.filterMap AWorker.err? := by rw [heq]; simp
    obtain ⟨w, hw, hwe⟩ := List.mem_filterMap.1 hm
    obtain ⟨e', rfl⟩ := hf.2.2 w hw
    have : e' = some e := hwe
    subst this
    exact good_err (hi.wk _ hw)
  · exact good_ok _

include hc in
theorem adcall [Nonempty Env] :
    ¬ AutocompletePanics c ∧ ¬ AutocompleteBlocks c ∧ (∀ f : Nat → AState κ S, ¬ ∀ i, c.Step (f i) (f (i + 1))) ∧
      (∃ r, AutocompleteReturns c r) ∧ ∀ r, AutocompleteReturns c r → Good r := by
  obtain ⟨s0, hs0⟩ : ∃ s0, c.start = .ok s0 := by
    obtain ⟨q, e1, _⟩ := hc.start
    unfold AConf.start
    rw [e1]
    exact ⟨_, rfl⟩
  refine ⟨?_, ?_, ano_infinite_run, ?_, fun r hr => adresult hc hr⟩
  · rintro (⟨_, h⟩ | ⟨s, hre, h⟩)
    · rw [hs0] at h; simp at h
    · exact h (adinv_reachable hc hre).np
  · rintro ⟨s, hre, _, hnf, hns⟩
    rcases adprogress hc hre with h | ⟨s', h⟩
    · exact hnf h
    · exact hns s' h
  · have : ∀ (w : Nat) s, c.Reachable s → s.weight ≤ w → ∃ s', c.Reachable s' ∧ s'.final := by
      intro w
      induction w with
      | zero =>
        intro s hre hw
        rcases adprogress hc hre with h | ⟨s', h⟩
        · exact ⟨s, hre, h⟩
        · have := aweight_step h; omega
      | succ w ih =>
        intro s hre hw
        rcases adprogress hc hre with h | ⟨s', h⟩
        · exact ⟨s, hre, h⟩
        · have := aweight_step h
          exact ih s' (hre.step h) (by omega)
    obtain ⟨s', h2, h3⟩ := this _ s0 (.start hs0) le_rfl
    exact ⟨_, s', h2, h3, rfl⟩

end

/-- A call with the first-k collectors on an opened index with arbitrary contents. -/
theorem acallOk_of {ρ : Roaring} (R : ρ.Robust) {sort : List (PList ρ) → List (PList ρ)}
    (hs : ∀ r, (sort r).Perm r) (oi : OpenIndex) {q : List String} (hq : q.length ≤ MergeCandidate.maxOverlap) (K : Nat) :
    ACallOk (autocompleteCall ρ sort oi q K) (fun g => K = 0 ∨ ∃ M, g.Holds K M) (fun items => K = 0 → items = []) := by
  have hcol : Collects (fun items : List MergeCandidate => K = 0 → items = []) (firstKCollect (K : Int)) := by
    intro items m hI
    unfold firstKCollect
    split
    · exact ⟨hI, fun e h => by simp at h⟩
    · rename_i hne
      refine ⟨fun h0 => ?_, fun e h => by simp at h⟩
      rw [hI h0, h0] at hne
      simp at hne
  refine ⟨?_, ?_, ?_⟩
  · obtain ⟨q0, e0⟩ := new_ok (S := ℚ) K
    refine ⟨q0, e0, ?_⟩
    rcases Nat.eq_zero_or_pos K with h | h
    · exact .inl h
    · exact .inr ⟨_, new_holds h e0⟩
  · intro b f hget env
    simp only [autocompleteCall, builtIndices] at hget
    rw [if_pos (by omega)] at hget
    obtain ⟨tab, _, rfl⟩ := Option.map_eq_some_iff.1 hget
    refine search_fine R hcol hs oi.docs env tab q hq (q.length : Int) ?_ [] (fun _ => rfl)
    by_cases h : q = []
    · exact .inr h
    · left
      have := List.length_pos_iff.2 h
      omega
  · intro g items hg hi
    rcases hg with h0 | ⟨M, hM⟩
    · refine ⟨g, ?_, .inl h0⟩
      rw [hi h0]; rfl
    · obtain ⟨q', e1, e2⟩ := addAll_spec (items.map firstKCandidate) hM
      exact ⟨q', e1, .inr ⟨_, e2⟩⟩

end Verif.Damage
