import Verif.Model.Analysis
import Verif.Proofs.Text
import Mathlib.Data.Int.ModEq
/- The n-gram tokenizer. -/
namespace Verif
open Spec (utf8 windows)

theorem appendUnique_eraseDups (l : List Bytes) (x : Bytes) :
    appendUnique l.eraseDups x = (l ++ [x]).eraseDups := by
  rw [List.eraseDups_append]
  unfold appendUnique
  by_cases h : x ∈ l
  · rw [if_pos (List.mem_eraseDups.2 h)]
    simp [List.removeAll, h]
  · rw [if_neg (fun hc => h (List.mem_eraseDups.1 hc))]
    simp [List.removeAll, h, List.eraseDups_cons]

theorem nodup_eraseDups_aux (k : Nat) : ∀ l : List Bytes, l.length ≤ k → l.eraseDups.Nodup := by
  induction k with
  | zero =>
    intro l hl
    rw [List.eq_nil_of_length_eq_zero (l := l) (by omega)]
    exact List.nodup_nil
  | succ k ih =>
    intro l hl
    cases l with
    | nil => exact List.nodup_nil
    | cons a l =>
      rw [List.eraseDups_cons, List.nodup_cons]
      refine ⟨?_, ih _ ?_⟩
      · rw [List.mem_eraseDups, List.mem_filter]; simp
      · have := List.length_filter_le (fun b => !b == a) l
        simp at hl; omega

theorem nodup_eraseDups (l : List Bytes) : l.eraseDups.Nodup := nodup_eraseDups_aux l.length l (Nat.le_refl _)

section
variable (cs : List (Nat × Bytes))

/-- Start of the `j`-th character. -/
def offs (j : Nat) : Nat := (joinChars (cs.take j)).length

/-- The bytes of the `n` characters from the `i`-th on. -/
def win (n i : Nat) : Bytes := joinChars ((cs.drop i).take n)

theorem offs_mono {i j : Nat} (h : i ≤ j) : offs cs i ≤ offs cs j := by
  unfold offs
  rw [← Nat.sub_add_cancel h, Nat.add_comm, List.take_add, joinChars_append, List.length_append]
  omega

theorem offs_le (i : Nat) : offs cs i ≤ (joinChars cs).length := by
  unfold offs
  conv_rhs => rw [← List.take_append_drop i cs, joinChars_append, List.length_append]
  omega

theorem drop_offs (i : Nat) : (joinChars cs).drop (offs cs i) = joinChars (cs.drop i) := by
  conv_lhs => rw [← List.take_append_drop i cs, joinChars_append]
  unfold offs
  rw [List.take_append_drop]
  exact List.drop_left

theorem slice_offs (i n : Nat) : sliceText (joinChars cs) (offs cs i) (offs cs (i + n)) = .ok (win cs n i) := by
  unfold sliceText
  rw [if_pos ⟨offs_mono cs (by omega), offs_le cs _⟩, drop_offs]
  congr 1
  have e1 : offs cs (i + n) - offs cs i = (joinChars ((cs.drop i).take n)).length := by
    unfold offs
    rw [List.take_add, joinChars_append, List.length_append]
    omega
  rw [e1]
  unfold win
  conv_lhs => rw [← List.take_append_drop n (cs.drop i)]
  rw [joinChars_append, List.take_append_drop, List.take_left]

theorem offsets_drop (k : Nat) (h : k < cs.length) :
    offsets (offs cs k) (cs.drop k) = (offs cs k, cs[k].1) :: offsets (offs cs (k + 1)) (cs.drop (k + 1)) := by
  rw [List.drop_eq_getElem_cons h]
  have : offs cs k + (cs[k].2).length = offs cs (k + 1) := by
    unfold offs
    rw [List.take_add_one, joinChars_append, List.length_append, List.getElem?_eq_getElem h]
    simp
  rw [← this]
  rfl

/-- The ring buffer after `k` characters. -/
structure Ring (n k : Nat) (prev : List Nat) : Prop where
  len : prev.length = 8
  recent : ∀ j, j < k → k ≤ j + n → prev[(j + 1) % n]? = some (offs cs j)
  unset : k < n → ∀ s, k < s → prev[s % n]? = some 0 ∨ n ≤ s ∧ s % n ≠ 0

variable {cs}

theorem loop_ok {n : Nat} (hn : 1 ≤ n) (hn8 : n ≤ 8) (d k : Nat) (hk : k + d = cs.length) (prev : List Nat)
    (hr : Ring cs n k prev) :
    ∃ prev', Ring cs n cs.length prev' ∧
      nGramLoop n (joinChars cs) (offsets (offs cs k) (cs.drop k)) k prev
        ((List.range (k - n)).map (win cs n)).eraseDups =
      .ok (cs.length, prev', ((List.range (cs.length - n)).map (win cs n)).eraseDups) := by
  induction d generalizing k prev with
  | zero =>
    obtain rfl : k = cs.length := by omega
    exact ⟨prev, hr, by rw [List.drop_length]; rfl⟩
  | succ d ih =>
    have hlt : k < cs.length := by omega
    rw [offsets_drop cs k hlt, nGramLoop]
    have hmod : (k + 1) % n < n := Nat.mod_lt _ (by omega)
    have hemit : nGramEmit n (joinChars cs) prev (k + 1) (offs cs k) ((List.range (k - n)).map (win cs n)).eraseDups =
        .ok ((List.range (k + 1 - n)).map (win cs n)).eraseDups := by
      unfold nGramEmit
      by_cases h : k + 1 > n
      · rw [if_pos h]
        have h1 := hr.recent (k - n) (by omega) (by omega)
        rw [show k - n + 1 = k + 1 - n by omega] at h1
        simp only [arrGet, h1]
        have := slice_offs cs (k - n) n
        rw [Nat.sub_add_cancel (by omega)] at this
        rw [this]
        simp only
        rw [appendUnique_eraseDups, show k + 1 - n = (k - n) + 1 by omega, List.range_succ, List.map_append]
        rfl
      · rw [if_neg h, show k - n = 0 by omega, show k + 1 - n = 0 by omega]
    rw [hemit]
    simp only
    have hset : arrSet prev ((k + 1) % n) (offs cs k) = .ok (prev.set ((k + 1) % n) (offs cs k)) := by
      rw [arrSet, if_pos]; rw [hr.len]; omega
    rw [hset]
    simp only
    refine ih (k + 1) (by omega) _ ⟨by simpa using hr.len, ?_, ?_⟩
    · intro j hj hjn
      by_cases hjk : j = k
      · subst hjk
        rw [List.getElem?_set_self]
        rw [hr.len]; omega
      · rw [List.getElem?_set_ne]
        · exact hr.recent j (by omega) (by omega)
        · intro hc
          have hd : n ∣ (k + 1) - (j + 1) := (Nat.modEq_iff_dvd' (by omega)).1 (show Nat.ModEq n (j + 1) (k + 1) from hc.symm)
          have := Nat.le_of_dvd (by omega) hd
          omega
    · intro hkn s hs
      by_cases hsn : n ≤ s ∧ s % n ≠ 0
      · exact Or.inr hsn
      left
      rcases hr.unset (by omega) s (by omega) with h | h
      · rw [List.getElem?_set_ne]
        · exact h
        · rw [Nat.mod_eq_of_lt hkn]
          intro hc
          by_cases h' : s < n
          · rw [Nat.mod_eq_of_lt h'] at hc; omega
          · have : s % n = 0 := by
              by_contra h0; exact hsn ⟨by omega, h0⟩
            omega
      · exact absurd h hsn

theorem ring_start (n : Nat) (hn : 1 ≤ n) (hn8 : n ≤ 8) : Ring cs n 0 (List.replicate maxN 0) where
  len := rfl
  recent := by intro j h; omega
  unset := by
    intro _ s _
    left
    rw [List.getElem?_replicate, if_pos]
    exact Nat.lt_of_lt_of_le (Nat.mod_lt _ (by omega)) hn8

end

/-- The tokenizer on an arbitrary byte string. -/
theorem nGramTokenize_eq {n : Nat} (hn : 1 ≤ n) (hn8 : n ≤ 8) (text : Bytes) :
    nGramTokenize n text = .ok
      (if text.length < n then []
        else if (charsOf text).length < n then [text]
        else ((windows n (charsOf text)).map joinChars).eraseDups) := by
  have hj := joinChars_charsOf text
  unfold nGramTokenize
  by_cases hlen : text.length < n
  · rw [if_pos hlen, if_pos hlen]
  rw [if_neg hlen, if_neg hlen, if_neg (by omega), rangeText_eq]
  generalize charsOf text = cs at hj
  subst hj
  obtain ⟨prev', hr, he⟩ := loop_ok (cs := cs) hn hn8 cs.length 0 (by omega) _ (ring_start n hn hn8)
  have h0 : offs cs 0 = 0 := rfl
  rw [h0, List.drop_zero, Nat.zero_sub] at he
  change nGramLoop n _ _ _ _ [] = _ at he
  rw [he]
  simp only
  have hend : ∀ i, sliceText (joinChars cs) (offs cs i) (joinChars cs).length = .ok (joinChars (cs.drop i)) := by
    intro i
    unfold sliceText
    rw [if_pos ⟨offs_le cs i, Nat.le_refl _⟩, drop_offs]
    congr 1
    apply List.take_of_length_le
    rw [← drop_offs, List.length_drop]
  by_cases hm : cs.length < n
  · rw [if_pos hm]
    have : prev'[(cs.length + 1) % n]? = some 0 := by
      rcases hr.unset hm (cs.length + 1) (by omega) with h | ⟨h1, h2⟩
      · exact h
      · obtain rfl : n = cs.length + 1 := by omega
        rw [Nat.mod_self] at h2; omega
    simp only [arrGet, this]
    have h := hend 0
    rw [h0] at h
    rw [h]
    simp only [Nat.sub_eq_zero_of_le (Nat.le_of_lt hm)]
    rfl
  · rw [if_neg hm]
    have := hr.recent (cs.length - n) (by omega) (by omega)
    rw [show cs.length + 1 = (cs.length - n + 1) + n by omega, Nat.add_mod_right]
    simp only [arrGet, this]
    rw [hend]
    simp only
    rw [appendUnique_eraseDups]
    unfold windows
    rw [List.range_succ, List.map_append, List.map_append, List.map_map]
    congr 3
    simp only [List.map_cons, List.map_nil]
    rw [List.take_of_length_le]
    rw [List.length_drop]; omega

theorem windows_map {α β : Type} (f : α → β) (n : Nat) (l : List α) :
    windows n (l.map f) = (windows n l).map (List.map f) := by
  unfold windows
  rw [List.map_map, List.length_map]
  apply List.map_congr_left
  intro i _
  simp [List.map_drop, List.map_take]

theorem nGramTokenize_utf8 {n : Nat} (hn : 1 ≤ n) (hn8 : n ≤ 8) (cs : List Char) :
    nGramTokenize n (utf8 cs) = .ok
      (if (utf8 cs).length < n then []
        else if cs.length < n then [utf8 cs]
        else ((windows n cs).map utf8).eraseDups) := by
  rw [nGramTokenize_eq hn hn8, charsOf_utf8, List.length_map, windows_map, List.map_map]
  congr 4
  apply List.map_congr_left
  intro l _
  exact joinChars_charPair l

theorem utf8_length_ge (cs : List Char) : cs.length ≤ (utf8 cs).length := by
  induction cs with
  | nil => simp
  | cons c cs ih =>
    have : utf8 (c :: cs) = String.utf8EncodeChar c ++ utf8 cs := rfl
    rw [this, List.length_append, List.length_cons]
    have := List.length_pos_of_ne_nil (utf8EncodeChar_ne_nil c)
    omega

/-- `n > 8`: the store into the ring buffer panics when the eighth character is reached. -/
theorem nGramLoop_large {n : Nat} (hn : 8 < n) (text : Bytes) (l : List (Nat × Nat)) (k : Nat) (prev : List Nat)
    (hp : prev.length = 8) (result : List Bytes) (hk : k < 8) (hl : 8 ≤ k + l.length) :
    nGramLoop n text l k prev result = .error .panicIndex := by
  induction l generalizing k prev result with
  | nil => simp at hl; omega
  | cons c rest ih =>
    obtain ⟨index, r⟩ := c
    rw [nGramLoop, nGramEmit, if_neg (by omega)]
    simp only
    rw [Nat.mod_eq_of_lt (by omega), arrSet]
    by_cases h : k + 1 < 8
    · rw [if_pos (by omega)]
      exact ih _ _ (by simpa using hp) _ h (by simp at hl; omega)
    · rw [if_neg (by omega)]

end Verif
