import Verif.Model.Http
import Verif.Spec.Http
/- Proofs about the parsing of request parameters. -/
namespace Verif
open Spec

theorem decimalValue_ge (s : List UInt8) (n : Nat) : n * 10 ^ s.length ≤ s.foldl (fun n c => n * 10 + (c.toNat - 48)) n := by
  induction s generalizing n with
  | nil => simp
  | cons c s ih =>
    rw [List.foldl_cons, List.length_cons, Nat.pow_succ]
    refine le_trans ?_ (ih (n * 10 + (c.toNat - 48)))
    have := Nat.zero_le (c.toNat - 48)
    calc n * (10 ^ s.length * 10) = n * 10 * 10 ^ s.length := by ring
      _ ≤ _ := Nat.mul_le_mul_right _ (by omega)

theorem foldl_ge (s : List UInt8) (n : Nat) : n ≤ s.foldl (fun n c => n * 10 + (c.toNat - 48)) n :=
  le_trans (Nat.le_mul_of_pos_right _ (by positivity)) (decimalValue_ge s n)

/-- The loop accepts exactly the digit strings whose value fits. -/
theorem parseUintLoop_spec (s : Bytes) (n : UInt64) :
    ((∀ c ∈ s, 48 ≤ c.toNat ∧ c.toNat ≤ 57) ∧ s.foldl (fun n c => n * 10 + (c.toNat - 48)) n.toNat < 2 ^ 64 →
      ∃ v, parseUintLoop s n = .ok v ∧ v.toNat = s.foldl (fun n c => n * 10 + (c.toNat - 48)) n.toNat) ∧
    (¬ ((∀ c ∈ s, 48 ≤ c.toNat ∧ c.toNat ≤ 57) ∧ s.foldl (fun n c => n * 10 + (c.toNat - 48)) n.toNat < 2 ^ 64) →
      ∃ e, parseUintLoop s n = .error e) := by
  induction s generalizing n with
  | nil =>
    refine ⟨fun _ => ⟨n, rfl, rfl⟩, fun h => ?_⟩
    exact absurd ⟨by simp, by simpa using n.toNat_lt⟩ h
  | cons c s ih =>
    by_cases hc : 48 ≤ c.toNat ∧ c.toNat ≤ 57
    · have hc' : (c < 48 || c > 57) = false := by
        have h1 : ¬ c < 48 := by rw [UInt8.lt_iff_toNat_lt]; simpa using hc.1
        have h2 : ¬ c > 57 := by
          show ¬ 57 < c
          rw [UInt8.lt_iff_toNat_lt]; simpa using hc.2
        simp [h1, h2]
      have hcd : (c - 48).toUInt64.toNat = c.toNat - 48 := by
        have h1 : (48 : UInt8) ≤ c := by rw [UInt8.le_iff_toNat_le]; simpa using hc.1
        rw [UInt8.toNat_toUInt64, UInt8.toNat_sub_of_le _ _ h1]; rfl
      rw [List.foldl_cons]
      by_cases hn : n ≥ 1844674407370955162
      · have hn' : 1844674407370955162 ≤ n.toNat := by
          have := UInt64.le_iff_toNat_le.1 hn
          simpa using this
        refine ⟨fun h => ?_, fun _ => ⟨_, by simp only [parseUintLoop, hc', hn, if_true]; rfl⟩⟩
        exfalso
        have h1 := foldl_ge s (n.toNat * 10 + (c.toNat - 48))
        have h2 := h.2
        omega
      · have hn' : n.toNat < 1844674407370955162 := by
          by_contra h
          apply hn
          show (1844674407370955162 : UInt64) ≤ n
          rw [UInt64.le_iff_toNat_le]
          have : (1844674407370955162 : UInt64).toNat = 1844674407370955162 := by decide
          omega
        have hm : (n * 10).toNat = n.toNat * 10 := by
          rw [UInt64.toNat_mul]
          have : (10 : UInt64).toNat = 10 := rfl
          rw [this, Nat.mod_eq_of_lt (by omega)]
        by_cases ho : n.toNat * 10 + (c.toNat - 48) < 2 ^ 64
        · have hs : (n * 10 + (c - 48).toUInt64).toNat = n.toNat * 10 + (c.toNat - 48) := by
            rw [UInt64.toNat_add, hm, hcd, Nat.mod_eq_of_lt ho]
          have hlt : ¬ (n * 10 + (c - 48).toUInt64 < n * 10) := by
            rw [UInt64.lt_iff_toNat_lt, hs, hm]; omega
          have e : parseUintLoop (c :: s) n = parseUintLoop s (n * 10 + (c - 48).toUInt64) := by
            simp only [parseUintLoop, hc', hn, hlt, if_false]; rfl
          rw [e]
          have := ih (n * 10 + (c - 48).toUInt64)
          rw [hs] at this
          refine ⟨fun h => this.1 ⟨fun c hc => h.1 c (List.mem_cons_of_mem _ hc), h.2⟩, fun h => this.2 fun h' => h ⟨?_, h'.2⟩⟩
          intro c' hm'
          rcases List.mem_cons.1 hm' with rfl | hm'
          · exact hc
          · exact h'.1 c' hm'
        · have hs : (n * 10 + (c - 48).toUInt64).toNat = n.toNat * 10 + (c.toNat - 48) - 2 ^ 64 := by
            rw [UInt64.toNat_add, hm, hcd]; omega
          have hlt : n * 10 + (c - 48).toUInt64 < n * 10 := by
            rw [UInt64.lt_iff_toNat_lt, hs, hm]; omega
          refine ⟨fun h => ?_, fun _ => ⟨_, by simp only [parseUintLoop, hc', hn, hlt, if_false, if_true]; rfl⟩⟩
          exfalso
          have h1 := foldl_ge s (n.toNat * 10 + (c.toNat - 48))
          have h2 := h.2
          omega
    · have hc' : (c < 48 || c > 57) = true := by
        by_cases h1 : 48 ≤ c.toNat
        · have : c > 57 := by
            show 57 < c
            rw [UInt8.lt_iff_toNat_lt]
            have : ¬ c.toNat ≤ 57 := fun h => hc ⟨h1, h⟩
            simpa using this
          simp [this]
        · have : c < 48 := by
            rw [UInt8.lt_iff_toNat_lt]; simpa using h1
          simp [this]
      refine ⟨fun h => absurd (h.1 c List.mem_cons_self) hc, fun _ => ⟨_, by simp only [parseUintLoop, hc', if_true]; rfl⟩⟩

theorem parseUint_spec (s : Bytes) :
    (IsDigits s ∧ decimalValue s < 2 ^ 64 → ∃ v, parseUint s = .ok v ∧ v.toNat = decimalValue s) ∧
    (¬ (IsDigits s ∧ decimalValue s < 2 ^ 64) → ∃ e, parseUint s = .error e) := by
  unfold parseUint
  have := parseUintLoop_spec s 0
  refine ⟨fun ⟨⟨h1, h2⟩, h3⟩ => ?_, fun h => ?_⟩
  · rw [if_neg h1]
    exact this.1 ⟨h2, h3⟩
  · split
    · exact ⟨_, rfl⟩
    · rename_i hne
      exact this.2 fun h' => h ⟨⟨hne, h'.1⟩, h'.2⟩

theorem parseUint_ok {s : Bytes} {v : UInt64} : parseUint s = .ok v ↔ IsDigits s ∧ v.toNat = decimalValue s := by
  obtain ⟨h1, h2⟩ := parseUint_spec s
  constructor
  · intro h
    by_cases hd : IsDigits s ∧ decimalValue s < 2 ^ 64
    · obtain ⟨v', e, hv⟩ := h1 hd
      rw [e] at h; cases h
      exact ⟨hd.1, hv⟩
    · obtain ⟨e, he⟩ := h2 hd
      rw [he] at h; cases h
  · rintro ⟨hd, hv⟩
    obtain ⟨v', e, hv'⟩ := h1 ⟨hd, by rw [← hv]; exact v.toNat_lt⟩
    rw [e, UInt64.toNat_inj.1 (hv'.trans hv.symm)]

/-- `ParseInt` accepts exactly the decimal integers between -2^63 and 2^63-1. -/
theorem parseInt_ok {s : Bytes} {n : Int} : parseInt s = .ok n ↔ IsDecimal s n ∧ -2 ^ 63 ≤ n ∧ n < 2 ^ 63 := by
  have h63 : (9223372036854775808 : UInt64).toNat = 2 ^ 63 := by decide
  have key : ∀ (neg : Bool) (digits : Bytes), (match parseUint digits with
      | .error e => (.error e : Except Err Int)
      | .ok un =>
        if !neg && un ≥ 9223372036854775808 then .error (.other "value out of range")
        else if neg && un > 9223372036854775808 then .error (.other "value out of range")
        else .ok (if neg then -(un.toNat : Int) else un.toNat)) = .ok n ↔
      IsDigits digits ∧ n = (if neg then -(decimalValue digits : Int) else decimalValue digits) ∧ -2 ^ 63 ≤ n ∧ n < 2 ^ 63 := by
    intro neg digits
    cases hp : parseUint digits with
    | error e =>
      simp only [reduceCtorEq, false_iff, not_and]
      intro hd hn h1 h2
      have : decimalValue digits < 2 ^ 64 := by
        cases neg <;> simp at hn <;> omega
      obtain ⟨v, hv, _⟩ := (parseUint_spec digits).1 ⟨hd, this⟩
      rw [hp] at hv; cases hv
    | ok un =>
      obtain ⟨hd, hv⟩ := parseUint_ok.1 hp
      simp only [← hv]
      have hge : un ≥ 9223372036854775808 ↔ 2 ^ 63 ≤ un.toNat := by
        rw [ge_iff_le, UInt64.le_iff_toNat_le, h63]
      have hgt : un > 9223372036854775808 ↔ 2 ^ 63 < un.toNat := by
        rw [gt_iff_lt, UInt64.lt_iff_toNat_lt, h63]
      cases neg
      · simp only [Bool.not_false, Bool.true_and, decide_eq_true_eq, hge, Bool.false_and, Bool.false_eq_true, if_false]
        split
        · simp only [reduceCtorEq, false_iff]
          rintro ⟨_, _, _, _⟩; omega
        · simp only [Except.ok.injEq]
          constructor
          · rintro rfl; exact ⟨hd, rfl, by omega, by omega⟩
          · rintro ⟨_, h, _⟩; exact h.symm
      · simp only [Bool.not_true, Bool.false_and, Bool.false_eq_true, if_false, Bool.true_and, decide_eq_true_eq, hgt, if_true]
        split
        · simp only [reduceCtorEq, false_iff]
          rintro ⟨_, _, _, _⟩; omega
        · simp only [Except.ok.injEq]
          constructor
          · rintro rfl; exact ⟨hd, rfl, by omega, by omega⟩
          · rintro ⟨_, h, _⟩; exact h.symm
  cases s with
  | nil =>
    simp [parseInt, IsDecimal, IsDigits]
  | cons c rest =>
    unfold parseInt
    refine (key (c == 45) (if c == 43 || c == 45 then rest else c :: rest)).trans ?_
    unfold IsDecimal
    have nd : ∀ x : UInt8, x.toNat < 48 → ¬ IsDigits (x :: rest) := fun x hx h => by
      have := h.2 x List.mem_cons_self; omega
    by_cases h45 : c = 45
    · subst h45
      have := nd 45 (by decide)
      simp [this, and_assoc]
    · by_cases h43 : c = 43
      · subst h43
        have := nd 43 (by decide)
        simp [this, and_assoc]
      · simp [h43, h45, and_assoc]

end Verif
