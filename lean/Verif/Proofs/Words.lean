import Verif.Model.Analysis
import Verif.Proofs.Text
/- The word tokenizer. -/
namespace Verif
open Spec (utf8 maximalRuns trim)

/-- Start of an open word `w` at position `off`. -/
def openStart (off : Nat) (w : List (Nat × Bytes)) : Option Nat := if w = [] then none else some off

theorem wordFlush_ok (pre w rest : List (Nat × Bytes)) (words : List Bytes) :
    wordFlush (joinChars (pre ++ w ++ rest)) (openStart (joinChars pre).length w) (joinChars w).length words =
      .ok (words ++ ([w].filter fun w => !w.isEmpty).map joinChars) := by
  by_cases h : w = []
  · subst h; simp [openStart, wordFlush]
  · have e : openStart (joinChars pre).length w = some (joinChars pre).length := by simp [openStart, h]
    rw [e, wordFlush, sliceText]
    rw [joinChars_append, joinChars_append]
    rw [if_pos (by simp only [List.length_append]; omega)]
    rw [List.append_assoc, List.drop_left, Nat.add_sub_cancel_left, List.take_left]
    simp [h]

theorem wordLoop_ok (has : Nat → Bool) (rest : List (Nat × Bytes)) :
    ∀ (pre w : List (Nat × Bytes)) (words : List Bytes),
      (∀ c ∈ rest, has c.1 = true → runeLen c.1 = c.2.length) →
      wordLoop has (joinChars (pre ++ w ++ rest)) (offsets (joinChars (pre ++ w)).length rest)
        (openStart (joinChars pre).length w) (joinChars w).length words =
      .ok (words ++ ((List.splitOnPPrepend (fun c => !has c.1) rest w.reverse).filter fun w => !w.isEmpty).map
        joinChars) := by
  induction rest with
  | nil =>
    intro pre w words _
    rw [offsets, wordLoop, wordFlush_ok, List.splitOnPPrepend_nil, List.reverse_reverse]
  | cons c rest ih =>
    intro pre w words hw
    obtain ⟨r, b⟩ := c
    rw [offsets, wordLoop]
    by_cases hr : has r = true
    · rw [if_pos hr, List.splitOnPPrepend_cons_neg (by simp [hr])]
      have h1 := hw (r, b) (by simp) hr
      simp only at h1
      have hi := ih pre (w ++ [(r, b)]) words (fun c hc => hw c (by simp [hc]))
      have e1 : pre ++ (w ++ [(r, b)]) ++ rest = pre ++ w ++ (r, b) :: rest := by simp
      have e2 : (joinChars (pre ++ (w ++ [(r, b)]))).length = (joinChars (pre ++ w)).length + b.length := by
        simp; omega
      have e3 : (joinChars (w ++ [(r, b)])).length = (joinChars w).length + runeLen r := by simp [h1]
      have e4 : openStart (joinChars pre).length (w ++ [(r, b)]) =
          some ((openStart (joinChars pre).length w).getD (joinChars (pre ++ w)).length) := by
        by_cases h : w = []
        · subst h; simp [openStart]
        · simp [openStart, h]
      rw [e1, e2, e3, e4] at hi
      rw [hi]
      simp
    · rw [if_neg hr, wordFlush_ok pre w ((r, b) :: rest) words, List.splitOnPPrepend_cons_pos (by simpa using hr)]
      simp only
      have hi := ih (pre ++ w ++ [(r, b)]) [] (words ++ ([w].filter fun w => !w.isEmpty).map joinChars)
        (fun c hc => hw c (by simp [hc]))
      have e1 : pre ++ w ++ [(r, b)] ++ [] ++ rest = pre ++ w ++ (r, b) :: rest := by simp
      have e2 : (joinChars (pre ++ w ++ [(r, b)] ++ [])).length = (joinChars (pre ++ w)).length + b.length := by
        simp; omega
      rw [e1, e2] at hi
      have e4 : openStart (joinChars (pre ++ w ++ [(r, b)])).length [] = none := rfl
      rw [e4] at hi
      change wordLoop _ _ _ none 0 _ = _ at hi
      rw [hi, List.reverse_reverse]
      simp only [List.reverse_nil, List.splitOnPPrepend_nil_right, List.append_assoc, Except.ok.injEq,
        List.append_cancel_left_eq]
      rw [← List.map_append, ← List.filter_append, List.singleton_append]

/-- The tokenizer on an arbitrary byte string, if decoding errors are not letters of the alphabet. -/
theorem wordTokenize_eq (a : Alphabet) (text : Bytes)
    (h : ∀ c ∈ charsOf text, a.has c.1 = true → runeLen c.1 = c.2.length) :
    wordTokenize a text = .ok ((maximalRuns (fun c => a.has c.1) (charsOf text)).map joinChars) := by
  unfold wordTokenize
  rw [rangeText_eq]
  have := wordLoop_ok a.has (charsOf text) [] [] [] h
  simp only [List.nil_append, joinChars_charsOf] at this
  exact this

theorem splitOnP_map {α β : Type} (f : α → β) (p : β → Bool) (l : List α) :
    (l.map f).splitOnP p = (l.splitOnP (p ∘ f)).map (List.map f) := by
  induction l with
  | nil => rfl
  | cons x l ih =>
    rw [List.map_cons, List.splitOnP_cons_eq_if_modifyHead, List.splitOnP_cons_eq_if_modifyHead, ih]
    by_cases h : p (f x) = true
    · simp [h]
    · rw [if_neg h, if_neg (show ¬ (p ∘ f) x = true from h)]
      generalize List.splitOnP (p ∘ f) l = L
      cases L <;> rfl

theorem maximalRuns_map {α β : Type} (f : α → β) (p : β → Bool) (l : List α) :
    maximalRuns p (l.map f) = (maximalRuns (p ∘ f) l).map (List.map f) := by
  unfold maximalRuns
  rw [splitOnP_map, List.filter_map]
  congr 1
  have : ((fun w : List β => !w.isEmpty) ∘ List.map f) = fun w => !w.isEmpty := by
    funext w; cases w <;> rfl
  rw [this]; rfl

theorem wordTokenize_utf8 (a : Alphabet) (cs : List Char) :
    wordTokenize a (utf8 cs) = .ok ((maximalRuns (fun c : Char => a.has c.toNat) cs).map utf8) := by
  rw [wordTokenize_eq, charsOf_utf8, maximalRuns_map, List.map_map]
  · congr 1
    apply List.map_congr_left
    intro l _
    exact joinChars_charPair l
  · intro c hc _
    rw [charsOf_utf8, List.mem_map] at hc
    obtain ⟨x, _, rfl⟩ := hc
    exact runeLen_char x

theorem leadInfo_some {b len lo hi : Nat} (h : leadInfo b = some (len, lo, hi)) :
    (len = 2 ∧ 0xC2 ≤ b ∧ b < 0xE0) ∨
      (len = 3 ∧ 0xE0 ≤ b ∧ b < 0xF0 ∧ 0x80 ≤ lo ∧ (b = 0xE0 → 0xA0 ≤ lo) ∧ hi ≤ 0xBF) ∨
      (len = 4 ∧ 0xF0 ≤ b ∧ b ≤ 0xF4 ∧ 0x80 ≤ lo ∧ (b = 0xF0 → 0x90 ≤ lo) ∧ hi ≤ 0xBF) := by
  unfold leadInfo at h
  repeat' split at h
  all_goals first
    | (simp only [Option.some.injEq, Prod.mk.injEq] at h
       omega)
    | cases h

theorem runeLen_decode (b : UInt8) (t : Bytes) (h : (decodeRune (b :: t)).1 ≠ runeError) :
    runeLen (decodeRune (b :: t)).1 = (decodeRune (b :: t)).2 := by
  simp only [decodeRune] at h ⊢
  by_cases h1 : b.toNat < 0x80
  · simp only [h1, if_true] at h ⊢
    simp [runeLen, h1]
  simp only [h1, if_false] at h ⊢
  cases hL : leadInfo b.toNat with
  | none => rw [hL] at h; exact absurd rfl h
  | some L =>
    obtain ⟨len, lo, hi⟩ := L
    rw [hL] at h
    simp only at h ⊢
    rcases leadInfo_some hL with ⟨rfl, h2, h3⟩ | ⟨rfl, h2, h3, h4, h5, h6⟩ | ⟨rfl, h2, h3, h4, h5, h6⟩
    · rcases t with _ | ⟨b1, t⟩
      · exact absurd rfl h
      · simp only at h ⊢
        split
        · simp only
          unfold runeLen
          rw [if_neg (by omega), if_pos (by omega)]
        · rename_i hc; rw [if_neg hc] at h; exact absurd rfl h
    · rcases t with _ | ⟨b1, _ | ⟨b2, t⟩⟩
      · exact absurd rfl h
      · exact absurd rfl h
      · simp only at h ⊢
        split
        · rename_i hc
          simp only [inByteRange, Bool.and_eq_true, decide_eq_true_eq] at hc
          simp only
          unfold runeLen
          by_cases he : b.toNat = 0xE0
          · have := h5 he
            rw [if_neg (by omega), if_neg (by omega), if_pos (by omega)]
          · rw [if_neg (by omega), if_neg (by omega), if_pos (by omega)]
        · rename_i hc; rw [if_neg hc] at h; exact absurd rfl h
    · rcases t with _ | ⟨b1, _ | ⟨b2, _ | ⟨b3, t⟩⟩⟩
      · exact absurd rfl h
      · exact absurd rfl h
      · exact absurd rfl h
      · simp only at h ⊢
        split
        · rename_i hc
          simp only [inByteRange, Bool.and_eq_true, decide_eq_true_eq] at hc
          simp only
          unfold runeLen
          by_cases he : b.toNat = 0xF0
          · have := h5 he
            rw [if_neg (by omega), if_neg (by omega), if_neg (by omega)]
          · rw [if_neg (by omega), if_neg (by omega), if_neg (by omega)]
        · rename_i hc; rw [if_neg hc] at h; exact absurd rfl h

theorem charsOf_runeLen {s : Bytes} {c} (h : c ∈ charsOf s) (hr : c.1 ≠ runeError) : runeLen c.1 = c.2.length := by
  induction s using charsOf.induct with
  | case1 => simp [charsOf] at h
  | case2 b t ih =>
    rw [charsOf, List.mem_cons] at h
    rcases h with h | h
    · subst h
      simp only at hr ⊢
      rw [runeLen_decode b t hr, List.length_take]
      have := decodeRune_width_le b t
      omega
    · exact ih h

end Verif
