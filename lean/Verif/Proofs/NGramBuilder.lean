import Verif.Proofs.CountTrie
/- Proofs about NGramBuilder. -/
namespace Verif
open Spec (totalCount gramOccurrences)

theorem totalCount_append' {α : Type} [DecidableEq α] (h h' : List (List α × Nat)) (q : List α) :
    totalCount (h ++ h') q = totalCount h q + totalCount h' q := by
  simp [totalCount, List.filter_append]

theorem totalCount_nil {α : Type} [DecidableEq α] (q : List α) : totalCount [] q = 0 := rfl

theorem totalCount_map_one (l : List (List Bytes)) (q : List Bytes) :
    totalCount (l.map fun g => (g, 1)) q = l.count q := by
  induction l with
  | nil => rfl
  | cons g l ih =>
    rw [List.map_cons, show ((g, 1) :: l.map fun g => (g, 1)) = [(g, 1)] ++ l.map (fun g => (g, 1)) from rfl,
      totalCount_append', ih, List.count_cons]
    by_cases h : g = q
    · simp [totalCount, h]; omega
    · have : ¬ (g == q) = true := by simpa using h
      simp [totalCount, h]

theorem nGramsOf_cons (x : Bytes) (s : List Bytes) {k : Nat} (hk : 1 ≤ k) :
    nGramsOf (x :: s) k = (if k ≤ s.length + 1 then [(x :: s).take k] else []) ++ nGramsOf s k := by
  unfold nGramsOf
  by_cases h : k ≤ s.length + 1
  · rw [if_pos h, show (x :: s).length + 1 - k = (s.length + 1 - k) + 1 by simp; omega, List.range_succ_eq_map]
    simp [List.map_map, Function.comp_def]
  · rw [if_neg h, show (x :: s).length + 1 - k = 0 by simp; omega, show s.length + 1 - k = 0 by omega]
    rfl

theorem count_nGramsOf (s p : List Bytes) {k : Nat} (hk : 1 ≤ k) :
    (nGramsOf s k).count p = if p.length = k then gramOccurrences p s else 0 := by
  induction s with
  | nil =>
    have : nGramsOf [] k = [] := by
      unfold nGramsOf
      rw [show ([] : List Bytes).length + 1 - k = 0 by simp; omega]
      rfl
    rw [this]
    split
    · have : p ≠ [] := by rintro rfl; simp at *; omega
      simp [gramOccurrences, this]
    · rfl
  | cons x s ih =>
    rw [nGramsOf_cons x s hk, List.count_append, ih]
    by_cases hp : p.length = k
    · simp only [hp, if_true, gramOccurrences]
      congr 1
      by_cases hpre : p <+: x :: s
      · have hle : k ≤ s.length + 1 := by have := hpre.length_le; simp at this; omega
        rw [if_pos hle, if_pos hpre, List.prefix_iff_eq_take.1 hpre, hp]
        simp
      · rw [if_neg hpre]
        split
        · have : (x :: s).take k ≠ p := by
            rintro rfl
            exact hpre (List.take_prefix _ _)
          rw [List.count_eq_zero]
          simpa using fun h => this h.symm
        · rfl
    · simp only [hp, if_false, Nat.add_zero]
      split
      · rename_i hle
        have : (x :: s).take k ≠ p := by
          rintro rfl
          apply hp
          simp; omega
        rw [List.count_eq_zero]
        simpa using fun h => this h.symm
      · rfl

/-- The Put calls made for one sentence. -/
def sentencePuts (start fin : Bytes) (order : Nat) (s : List Bytes) : List (List Bytes × Nat) :=
  (List.range order).flatMap fun k => (nGramsOf (start :: s ++ [fin]) (k + 1)).map fun g => (g, 1)

/-- The Put calls made for a list of sentences; empty sentences are skipped. -/
def allPuts (start fin : Bytes) (order : Nat) (src : List (List Bytes)) : List (List Bytes × Nat) :=
  (src.filter (· ≠ [])).flatMap (sentencePuts start fin order)

theorem afterPuts_append (h h' : List (List Bytes × Nat)) :
    afterPuts (h ++ h') = h'.foldl (fun t pc => t.put pc.1 pc.2) (afterPuts h) := by
  simp [afterPuts, List.foldl_append]

theorem buildSentence_eq (start fin : Bytes) (order : Nat) (t : CountTrie) (s : List Bytes) :
    buildSentence start fin order t s = (sentencePuts start fin order s).foldl (fun t pc => t.put pc.1 pc.2) t := by
  unfold buildSentence sentencePuts
  simp only []
  generalize List.range order = l
  induction l generalizing t with
  | nil => rfl
  | cons k l ih => rw [List.foldl_cons, List.flatMap_cons, List.foldl_append, ih, List.foldl_map]

theorem total_sentencePuts (start fin : Bytes) (order : Nat) (s p : List Bytes) :
    totalCount (sentencePuts start fin order s) p =
      if 1 ≤ p.length ∧ p.length ≤ order then gramOccurrences p (start :: s ++ [fin]) else 0 := by
  unfold sentencePuts
  induction order with
  | zero => rw [if_neg (by omega)]; rfl
  | succ n ih =>
    rw [List.range_succ, List.flatMap_append, totalCount_append', ih, List.flatMap_cons, List.flatMap_nil, List.append_nil,
      totalCount_map_one, count_nGramsOf _ _ (show 1 ≤ n + 1 by omega)]
    by_cases h1 : 1 ≤ p.length ∧ p.length ≤ n
    · rw [if_pos h1, if_neg (by omega), if_pos (by omega)]; omega
    · rw [if_neg h1]
      by_cases h2 : p.length = n + 1
      · rw [if_pos h2, if_pos (by omega)]; omega
      · rw [if_neg h2, if_neg (by omega)]

theorem total_allPuts (start fin : Bytes) (order : Nat) (src : List (List Bytes)) (p : List Bytes) :
    totalCount (allPuts start fin order src) p =
      if 1 ≤ p.length ∧ p.length ≤ order then
        (((src.filter (· ≠ [])).map fun s => gramOccurrences p (start :: s ++ [fin]))).sum else 0 := by
  unfold allPuts
  generalize src.filter (· ≠ []) = l
  induction l with
  | nil => simp [totalCount_nil]
  | cons s l ih =>
    rw [List.flatMap_cons, totalCount_append', ih, total_sentencePuts, List.map_cons, List.sum_cons]
    split <;> rfl

/-- What is invariant while Build runs. -/
def BuildInv (start fin : Bytes) (order : Nat) (source : List (List Bytes)) (st : BuildState) : Prop :=
  ∃ done, st.trie = afterPuts (allPuts start fin order done) ∧
    match st.producer with
    | .loop => source = done ++ st.source ∧ st.returned = false
    | .sending s => s ≠ [] ∧ source = done ++ s :: st.source ∧ st.returned = false
    | .quitting => source = done ∧ st.source = [] ∧ st.returned = false
    | .done => source = done ∧ st.returned = true

theorem allPuts_append (start fin : Bytes) (order : Nat) (a b : List (List Bytes)) :
    allPuts start fin order (a ++ b) = allPuts start fin order a ++ allPuts start fin order b := by
  simp [allPuts, List.filter_append]

theorem buildInv {start fin : Bytes} {order : Nat} {source : List (List Bytes)} {st : BuildState}
    (h : BuildReachable start fin order source st) : BuildInv start fin order source st := by
  induction h with
  | init => exact ⟨[], rfl, by simp [buildInit]⟩
  | step _ hs ih =>
    obtain ⟨done, h1, h2⟩ := ih
    cases hs with
    | retrieveNil => exact ⟨done, h1, by simpa using h2⟩
    | @retrieveEmpty src t r =>
      refine ⟨done ++ [[]], ?_, ?_⟩
      · rw [allPuts_append]
        simpa [allPuts] using h1
      · simpa using h2
    | @retrieve s src t r hne => exact ⟨done, h1, hne, by simpa using h2⟩
    | @receive s src t =>
      have h1 : t = afterPuts (allPuts start fin order done) := h1
      have h2 : s ≠ [] ∧ source = done ++ s :: src ∧ false = false := h2
      refine ⟨done ++ [s], ?_, ?_⟩
      · show buildSentence start fin order t s = _
        have : allPuts start fin order [s] = sentencePuts start fin order s := by
          simp [allPuts, h2.1]
        rw [allPuts_append, afterPuts_append, buildSentence_eq, h1, this]
      · simpa using h2.2.1
    | quit => exact ⟨done, h1, h2.1, rfl⟩

theorem mem_nGramsOf {s g : List Bytes} {k : Nat} (h : g ∈ nGramsOf s k) : ∀ w ∈ g, w ∈ s := by
  obtain ⟨i, _, rfl⟩ := List.mem_map.1 h
  intro w hw
  exact List.mem_of_mem_drop (List.mem_of_mem_take hw)

theorem voc_allPuts {start fin : Bytes} {order : Nat} {src : List (List Bytes)} {voc : List Bytes}
    (hs : ∀ s ∈ src, ∀ w ∈ s, w ∈ voc) (h1 : start ∈ voc) (h2 : fin ∈ voc) :
    ∀ pc ∈ allPuts start fin order src, ∀ w ∈ pc.1, w ∈ voc := by
  intro pc hpc w hw
  unfold allPuts sentencePuts at hpc
  obtain ⟨s, hsm, hpc⟩ := List.mem_flatMap.1 hpc
  obtain ⟨k, _, hpc⟩ := List.mem_flatMap.1 hpc
  obtain ⟨g, hg, rfl⟩ := List.mem_map.1 hpc
  have := mem_nGramsOf hg w hw
  simp only [List.cons_append, List.mem_cons, List.mem_append, List.not_mem_nil, or_false] at this
  rcases this with rfl | h | rfl
  · exact h1
  · exact hs s (List.mem_of_mem_filter hsm) w h
  · exact h2

end Verif
