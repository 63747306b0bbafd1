import Verif.Proofs.NGramBuilder
/- C41, C42: the count trie and the n-gram builder. -/
namespace Verif.Props
open Spec (totalCount gramOccurrences)

theorem le_sum_of_mem {l : List Nat} {x : Nat} (h : x ∈ l) : x ≤ l.sum := by
  induction l with
  | nil => cases h
  | cons y l ih =>
    rw [List.sum_cons]
    rcases List.mem_cons.1 h with h | h
    · omega
    · have := ih h; omega

theorem sum_eq_zero {l : List Nat} (h : ∀ x ∈ l, x = 0) : l.sum = 0 := by
  induction l with
  | nil => rfl
  | cons y l ih =>
    rw [List.sum_cons, ih fun x hx => h x (by simp [hx]), h y (by simp)]

/-- The iteration order of the maps: any order. -/
def AnyOrder (ord : List Bytes → List (Nat × CTNode) → List (Nat × CTNode)) : Prop := ∀ p l, (ord p l).Perm l

/-- C41. After any history of Put calls (over a vocabulary of fewer than 2^32 tokens), in whatever order the maps are
iterated, Walk succeeds and reports each path once, with the sum of the counts put for it in uint32 arithmetic; a path
is reported iff this count is not zero (provided some nonempty sentence was put). -/
theorem C41_walk (h : List (List Bytes × Nat)) (voc : List Bytes) (hvs : voc.length < 2 ^ 32)
    (hv : ∀ pc ∈ h, ∀ w ∈ pc.1, w ∈ voc) {ord : List Bytes → List (Nat × CTNode) → List (Nat × CTNode)}
    (ho : AnyOrder ord) :
    ∃ calls, (afterPuts h).walk ord record [] = .ok calls ∧ (calls.map Prod.fst).Nodup ∧
      ∀ p c, (p, c) ∈ calls ↔ (∃ q ∈ h, q.1 ≠ []) ∧ c = totalCount h p % 2 ^ 32 ∧ c ≠ 0 := by
  obtain ⟨calls, h1, h2, h3⟩ := walk_eq (trieInv_after hvs h hv) ho
  refine ⟨calls, ?_, h2, h3⟩
  rw [h1, foldE_record]
  rfl

/-- C41, as long as the sums fit into uint32: every nonempty sentence that was put with some positive count is reported
exactly once with the exact sum, and nothing else nonempty is reported. -/
theorem C41_exact (h : List (List Bytes × Nat)) (voc : List Bytes) (hvs : voc.length < 2 ^ 32)
    (hv : ∀ pc ∈ h, ∀ w ∈ pc.1, w ∈ voc) (hfit : ∀ p, totalCount h p < 2 ^ 32)
    {ord : List Bytes → List (Nat × CTNode) → List (Nat × CTNode)} (ho : AnyOrder ord) :
    ∃ calls, (afterPuts h).walk ord record [] = .ok calls ∧ (calls.map Prod.fst).Nodup ∧
      (∀ pc ∈ h, pc.1 ≠ [] → 0 < pc.2 → (pc.1, totalCount h pc.1) ∈ calls) ∧
      ∀ p c, (p, c) ∈ calls → p ≠ [] → c = totalCount h p ∧ ∃ pc ∈ h, pc.1 = p ∧ 0 < pc.2 := by
  obtain ⟨calls, h1, h2, h3⟩ := C41_walk h voc hvs hv ho
  refine ⟨calls, h1, h2, ?_, ?_⟩
  · intro pc hpc hne hpos
    refine (h3 _ _).2 ⟨⟨pc, hpc, hne⟩, (Nat.mod_eq_of_lt (hfit _)).symm, ?_⟩
    have : pc.2 ≤ totalCount h pc.1 := by
      unfold totalCount
      apply le_sum_of_mem
      exact List.mem_map.2 ⟨pc, List.mem_filter.2 ⟨hpc, by simp⟩, rfl⟩
    omega
  · intro p c hm hne
    obtain ⟨_, hc, h0⟩ := (h3 p c).1 hm
    rw [Nat.mod_eq_of_lt (hfit p)] at hc
    refine ⟨hc, ?_⟩
    by_contra hcon
    push Not at hcon
    apply h0
    rw [hc]
    unfold totalCount
    apply sum_eq_zero
    intro x hx
    obtain ⟨pc, hpc, rfl⟩ := List.mem_map.1 hx
    obtain ⟨hm', he⟩ := List.mem_filter.1 hpc
    have := hcon pc hm' (by simpa using he)
    omega

/-- C41. The callback is called on exactly these paths also when it is another one (e.g. the n-gram writer), until it
fails; its error is returned. -/
theorem C41_any_walker (h : List (List Bytes × Nat)) (voc : List Bytes) (hvs : voc.length < 2 ^ 32)
    (hv : ∀ pc ∈ h, ∀ w ∈ pc.1, w ∈ voc) {ord : List Bytes → List (Nat × CTNode) → List (Nat × CTNode)}
    (ho : AnyOrder ord) :
    ∃ calls, (afterPuts h).walk ord record [] = .ok calls ∧
      ∀ (σ : Type) (walker : σ → List Bytes → Nat → Except Err σ) (s : σ),
        (afterPuts h).walk ord walker s = foldE (fun s pc => walker s pc.1 pc.2) s calls := by
  obtain ⟨calls, h1, _, _⟩ := walk_eq (trieInv_after hvs h hv) ho
  refine ⟨calls, ?_, h1⟩
  rw [h1, foldE_record]
  rfl

/-- C41 fails at the limit of uint32: a sentence put with counts that sum up to 2^32 is not reported. -/
theorem C41_overflow : (afterPuts [([[97]], 2 ^ 31), ([[97]], 2 ^ 31)]).walk (fun _ l => l) record [] = .ok [] := by
  decide +kernel

example : (afterPuts [([[97], [98]], 2), ([[97]], 1), ([[97], [98]], 3), ([[98]], 0)]).walk (fun _ l => l) record [] =
    .ok [([[97]], 1), ([[97], [98]], 5)] := by decide +kernel

/-- C42. Whatever the schedule of the two goroutines, when Build returns, walking the trie reports for every n-gram of
order 1..nGramOrder the number of its gramOccurrences in the wrapped nonempty sentences (in uint32 arithmetic, if not zero),
each n-gram once, and nothing else. -/
theorem C42_counts {start fin : Bytes} {order : Nat} {source : List (List Bytes)} {st : BuildState}
    (hr : BuildReachable start fin order source st) (hret : st.returned = true) (voc : List Bytes)
    (hvs : voc.length < 2 ^ 32) (hv : ∀ s ∈ source, ∀ w ∈ s, w ∈ voc) (h1 : start ∈ voc) (h2 : fin ∈ voc)
    {ord : List Bytes → List (Nat × CTNode) → List (Nat × CTNode)} (ho : AnyOrder ord) :
    ∃ calls, st.trie.walk ord record [] = .ok calls ∧ (calls.map Prod.fst).Nodup ∧
      ∀ p c, (p, c) ∈ calls ↔ 1 ≤ p.length ∧ p.length ≤ order ∧ c ≠ 0 ∧
        c = ((source.filter (· ≠ [])).map fun s => gramOccurrences p (start :: s ++ [fin])).sum % 2 ^ 32 := by
  obtain ⟨done, ht, hp⟩ := buildInv hr
  have hd : source = done := by
    cases hpr : st.producer with
    | loop => rw [hpr] at hp; rw [hp.2] at hret; cases hret
    | sending s => rw [hpr] at hp; rw [hp.2.2] at hret; cases hret
    | quitting => rw [hpr] at hp; rw [hp.2.2] at hret; cases hret
    | done => rw [hpr] at hp; exact hp.1
  subst hd
  obtain ⟨calls, w1, w2, w3⟩ := C41_walk (allPuts start fin order source) voc hvs (voc_allPuts hv h1 h2) ho
  rw [← ht] at w1
  refine ⟨calls, w1, w2, ?_⟩
  intro p c
  rw [w3, total_allPuts]
  constructor
  · rintro ⟨_, hc, hne⟩
    split at hc
    · rename_i hl; exact ⟨hl.1, hl.2, hne, hc⟩
    · exact absurd hc hne
  · rintro ⟨l1, l2, hne, hc⟩
    rw [if_pos ⟨l1, l2⟩]
    refine ⟨?_, hc, hne⟩
    by_contra hcon
    push Not at hcon
    apply hne
    have : totalCount (allPuts start fin order source) p = 0 := by
      apply totalCount_eq_zero
      intro pc hpc he
      rw [hcon pc hpc] at he
      rw [← he] at l1
      simp at l1
    rw [total_allPuts, if_pos ⟨l1, l2⟩] at this
    rw [hc, this]

/-- C42. Build does not hang: until it returns some goroutine can go on, and there are only finitely many steps. -/
theorem C42_terminates {start fin : Bytes} {order : Nat} {source : List (List Bytes)} :
    (∀ st, BuildReachable start fin order source st → st.returned = false → ∃ st', BuildStep start fin order st st') ∧
    ∃ f : BuildState → Nat, ∀ st st', BuildStep start fin order st st' → f st' < f st := by
  constructor
  · intro st hr hret
    obtain ⟨done, _, hp⟩ := buildInv hr
    obtain ⟨src, pr, t, r⟩ := st
    simp only at hret
    subst hret
    cases pr with
    | loop =>
      cases src with
      | nil => exact ⟨_, .retrieveNil⟩
      | cons s src =>
        by_cases hs : s = []
        · subst hs; exact ⟨_, .retrieveEmpty⟩
        · exact ⟨_, .retrieve hs⟩
    | sending s => exact ⟨_, .receive⟩
    | quitting => exact ⟨_, .quit⟩
    | done => cases hp.2
  · refine ⟨fun st => 2 * st.source.length + match st.producer with
      | .loop => 3 | .sending _ => 4 | .quitting => 2 | .done => 0, ?_⟩
    intro st st' hs
    cases hs <;> (simp; try omega)

/-- A complete run: two sentences and an empty one. -/
example : ∃ st, BuildReachable [94] [36] 2 [[[97], [97]], [], [[97]]] st ∧ st.returned = true ∧
    st.trie.walk (fun _ l => l) record [] =
      .ok [([[94]], 2), ([[94], [97]], 2), ([[97]], 3), ([[97], [97]], 1), ([[97], [36]], 2), ([[36]], 2)] := by
  have h0 : BuildReachable [94] [36] 2 [[[97], [97]], [], [[97]]] _ := .init
  have h1 := h0.step (.retrieve (by decide))
  have h2 := h1.step .receive
  have h3 := h2.step .retrieveEmpty
  have h4 := h3.step (.retrieve (by decide))
  have h5 := h4.step .receive
  have h6 := h5.step .retrieveNil
  have h7 := h6.step .quit
  exact ⟨_, h7, rfl, by decide +kernel⟩

end Verif.Props
