import Verif.Proofs.LM
/- Proofs about the scores of the n-gram model. -/
namespace Verif
open Spec (totalCount gramCount contextCount corpusSize)

theorem calcLoop_unknown (counts : List Nat) (n : Nat) : ∀ s, (∀ i, 1 ≤ i → i ≤ n → counts.getD i 0 = 0) →
    calcLoop counts n s = .unknown := by
  induction n with
  | zero => intro s _; rfl
  | succ n ih =>
    intro s h
    have h1 := h (n + 1) (by omega) (by omega)
    simp only [calcLoop, h1]
    rw [if_neg (by omega)]
    exact ih _ fun i hi hn => h i hi (by omega)

theorem calcLoop_ratio (counts : List Nat) (n : Nat) : ∀ s j, 1 ≤ j → j ≤ n → 0 < counts.getD j 0 →
    (∀ i, j < i → i ≤ n → counts.getD i 0 = 0) →
    calcLoop counts n s = .ratio (s + (n - j)) (counts.getD j 0) (counts.getD (j - 1) 0) := by
  induction n with
  | zero => intro s j h1 h2; omega
  | succ n ih =>
    intro s j h1 h2 h3 h4
    simp only [calcLoop]
    by_cases hj : j = n + 1
    · subst hj
      rw [if_pos h3]; simp
    · have := h4 (n + 1) (by omega) (by omega)
      rw [if_neg (by omega), ih (s + 1) j h1 (by omega) h3 fun i hi hn => h4 i hi (by omega)]
      congr 1; omega

section
variable {files : List (List (List Nat × Nat))} {vs : List PackedArray} {ctx : List Nat → Nat} (L : Levels files vs ctx)
include L

theorem level_get {pre : List Nat} {w : Nat} {v : PackedArray} (hv : vs[pre.length]? = some v)
    (hpre : ∀ x ∈ pre, x < 2 ^ 32) (hw : w < 2 ^ 32) :
    v.getCount w (ctx pre) = .ok (gramCount files (pre ++ [w]) % 2 ^ 32, ctx (pre ++ [w])) := by
  have hl := L.len
  have hlt : pre.length < files.length := by
    have := (List.getElem?_eq_some_iff.1 hv).1; omega
  have := L.get pre.length files[pre.length] v pre w (List.getElem?_eq_getElem hlt) hv rfl hpre hw
  rw [this]
  simp [gramCount, List.getD_eq_getElem?_getD, List.getElem?_eq_getElem hlt]

theorem prefixCounts_eq (ws : List Nat) : ∀ (pre : List Nat) (us : List PackedArray), us = vs.drop pre.length →
    pre.length ≤ vs.length → (∀ x ∈ pre ++ ws, x < 2 ^ 32) →
    prefixCounts us ws (ctx pre) =
      .ok ((List.range (min ws.length us.length)).map (fun i => gramCount files (pre ++ ws.take (i + 1)) % 2 ^ 32),
        ctx (pre ++ ws.take us.length)) := by
  induction ws with
  | nil => intro pre us _ _ _; cases us <;> simp [prefixCounts]
  | cons w ws ih =>
    intro pre us hu hle hw
    cases us with
    | nil => simp [prefixCounts]
    | cons v us =>
      have hlt : pre.length < vs.length := by
        by_contra hge
        rw [List.drop_eq_nil_of_le (by omega)] at hu; cases hu
      have hv : vs[pre.length]? = some v := by
        have := congrArg List.head? hu
        rw [List.head?_drop] at this
        simpa using this.symm
      have hg := level_get L hv (fun x hx => hw x (by simp [hx])) (hw w (by simp))
      have := ih (pre ++ [w]) us (by
        have := congrArg List.tail hu
        simpa [List.tail_drop] using this) (by simp; omega) (by simpa using hw)
      simp only [prefixCounts, hg, this, List.length_cons, Nat.succ_min_succ, List.range_succ_eq_map, List.map_cons,
        List.map_map]
      simp [Function.comp_def]

theorem modelScore_eq {g : List Nat} (hg : ∀ x ∈ g, x < 2 ^ 32) :
    modelScore vs g = .ok (calcScore ((if g = [] ∨ vs = [] then 0 else corpusSize files % 2 ^ 32) ::
      (List.range (min g.length vs.length)).map fun i => gramCount files (g.take (i + 1)) % 2 ^ 32)) := by
  have hp := prefixCounts_eq L g [] vs (by simp) (by simp) (by simpa using hg)
  rw [L.nil] at hp
  unfold modelScore
  simp only [hp, List.nil_append]
  cases hvs : vs with
  | nil => simp
  | cons v us =>
    have hl := L.len
    cases hf : files with
    | nil => rw [hvs, hf] at hl; simp at hl
    | cons F rest =>
      have ht := L.total 0 F v (by rw [hf]; rfl) (by rw [hvs]; rfl)
      cases g with
      | nil => simp
      | cons w ws =>
        simp only [List.length_cons, Nat.succ_min_succ, List.range_succ_eq_map, List.map_cons]
        simp [corpusSize, ht]

theorem nextLoop_eq (ws : List Nat) : ∀ (pre : List Nat) (us : List PackedArray) (counts : List Nat),
    us = vs.drop pre.length → pre.length + ws.length < vs.length → (∀ x ∈ pre ++ ws, x < 2 ^ 32) →
    ((∃ i < ws.length, gramCount files (pre ++ ws.take (i + 1)) % 2 ^ 32 = 0) → nextLoop us ws counts (ctx pre) = .ok none) ∧
    ((∀ i < ws.length, gramCount files (pre ++ ws.take (i + 1)) % 2 ^ 32 ≠ 0) →
      ∃ v, vs[(pre ++ ws).length]? = some v ∧
      nextLoop us ws counts (ctx pre) = .ok (some (counts ++
        (List.range ws.length).map (fun i => gramCount files (pre ++ ws.take (i + 1)) % 2 ^ 32), ctx (pre ++ ws), v))) := by
  induction ws with
  | nil =>
    intro pre us counts hu hlt hw
    refine ⟨by rintro ⟨i, hi, _⟩; simp at hi, fun _ => ?_⟩
    cases us with
    | nil =>
      have := congrArg List.length hu
      simp at this hlt; omega
    | cons v us =>
      refine ⟨v, ?_, by simp [nextLoop]⟩
      have := congrArg List.head? hu
      rw [List.head?_drop] at this
      simpa using this.symm
  | cons w ws ih =>
    intro pre us counts hu hlt hw
    cases us with
    | nil =>
      have := congrArg List.length hu
      simp at this hlt; omega
    | cons v us =>
      have hv : vs[pre.length]? = some v := by
        have := congrArg List.head? hu
        rw [List.head?_drop] at this
        simpa using this.symm
      have hg := level_get L hv (fun x hx => hw x (by simp [hx])) (hw w (by simp))
      have hh := ih (pre ++ [w]) us (counts ++ [gramCount files (pre ++ [w]) % 2 ^ 32]) (by
        have := congrArg List.tail hu
        simpa [List.tail_drop] using this) (by simp at hlt ⊢; omega) (by simpa using hw)
      simp only [nextLoop, hg]
      by_cases h0 : gramCount files (pre ++ [w]) % 2 ^ 32 = 0
      · rw [if_pos h0]
        exact ⟨fun _ => rfl, fun hall => absurd h0 (by simpa using hall 0 (by simp))⟩
      · rw [if_neg h0]
        refine ⟨?_, ?_⟩
        · rintro ⟨i, hi, h⟩
          apply hh.1
          cases i with
          | zero => simp at h; omega
          | succ i => exact ⟨i, by simpa using hi, by simpa using h⟩
        · intro hall
          obtain ⟨v', h1, h2⟩ := hh.2 fun i hi => by simpa using hall (i + 1) (by simpa using hi)
          refine ⟨v', by simpa using h1, ?_⟩
          rw [h2]
          simp [List.range_succ_eq_map, Function.comp_def]

end

end Verif
