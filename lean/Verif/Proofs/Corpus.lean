import Verif.Model.NGramCount
import Verif.Spec.Corpus
import Verif.Proofs.Sentence
import Verif.Proofs.Words
namespace Verif.Corpus
open Verif Verif.Spec Verif.Sent

theorem decode_take (b : UInt8) (t : Bytes) {n : Nat} (h : (decodeRune (b :: t)).2 ≤ n) :
    decodeRune ((b :: t).take n) = decodeRune (b :: t) := by
  have hpos := decodeRune_width_pos b t
  obtain ⟨k, rfl⟩ : ∃ k, n = k + 1 := ⟨n - 1, by omega⟩
  rw [List.take_succ_cons]
  by_cases h80 : b.toNat < 0x80
  · simp [decodeRune, h80]
  cases hl : leadInfo b.toNat with
  | none => simp [decodeRune, h80, hl]
  | some q =>
    obtain ⟨len, lo, hi⟩ := q
    obtain ⟨hlen, -, -⟩ := leadInfo_spec hl
    rcases hlen with rfl | rfl | rfl
    · match t, k with
      | [], k => simp
      | b1 :: t, 0 =>
        simp only [decodeRune, h80, hl, ↓reduceIte] at h ⊢
        split at h
        · simp at h
        · rename_i hb; simp [hb]
      | b1 :: t, k + 1 => simp [decodeRune, h80, hl]
    · match t, k with
      | [], k => simp
      | [b1], 0 => simp [decodeRune, h80, hl]
      | [b1], k + 1 => simp
      | b1 :: b2 :: t, 0 =>
        simp only [decodeRune, h80, hl, ↓reduceIte] at h ⊢
        split at h
        · simp at h
        · rename_i hb; simp [hb]
      | b1 :: b2 :: t, 1 =>
        simp only [decodeRune, h80, hl, ↓reduceIte] at h ⊢
        split at h
        · simp at h
        · rename_i hb; simp [hb]
      | b1 :: b2 :: t, k + 2 => simp [decodeRune, h80, hl]
    · match t, k with
      | [], k => simp
      | [b1], 0 => simp [decodeRune, h80, hl]
      | [b1], k + 1 => simp
      | [b1, b2], 0 => simp [decodeRune, h80, hl]
      | [b1, b2], 1 => simp [decodeRune, h80, hl]
      | [b1, b2], k + 2 => simp
      | b1 :: b2 :: b3 :: t, 0 =>
        simp only [decodeRune, h80, hl, ↓reduceIte] at h ⊢
        split at h
        · simp at h
        · rename_i hb; simp [hb]
      | b1 :: b2 :: b3 :: t, 1 =>
        simp only [decodeRune, h80, hl, ↓reduceIte] at h ⊢
        split at h
        · simp at h
        · rename_i hb; simp [hb]
      | b1 :: b2 :: b3 :: t, 2 =>
        simp only [decodeRune, h80, hl, ↓reduceIte] at h ⊢
        split at h
        · simp at h
        · rename_i hb; simp [hb]
      | b1 :: b2 :: b3 :: t, k + 3 => simp [decodeRune, h80, hl]

/-- The first pieces of a text are the pieces of their bytes. -/
theorem pieces_head {d : Bytes} {A C : List (Nat × Bytes)} (h : pieces d = A ++ C) : pieces (cat A) = A := by
  induction d using runeInduction generalizing A with
  | nil =>
    rw [pieces_nil] at h
    have : A = [] := by simp at h; exact h.1
    subst this; simp [cat, pieces_nil]
  | cons b t ih =>
    cases A with
    | nil => simp [cat, pieces_nil]
    | cons a A =>
      have hw := decode_width b t
      have hp := decodeRune_width_pos b t
      have hd : b :: t = cat (a :: A) ++ cat C := by
        rw [← cat_append, ← h, cat_pieces]
      rw [pieces_cons] at h
      simp only [List.cons_append, List.cons.injEq] at h
      obtain ⟨rfl, h2⟩ := h
      have ih := ih h2
      generalize hL : cat (((decodeRune (b :: t)).1, (b :: t).take (decodeRune (b :: t)).2) :: A) = L at hd ⊢
      rw [cat_cons] at hL
      simp only at hL
      have hlen : (decodeRune (b :: t)).2 ≤ L.length := by
        rw [← hL]; simp only [List.length_append, List.length_take]; omega
      have hLt : L = (b :: t).take L.length := by rw [hd]; simp
      obtain ⟨c, u, rfl⟩ : ∃ c u, L = c :: u := by
        cases L with
        | nil => simp at hlen; omega
        | cons c u => exact ⟨c, u, rfl⟩
      have hdec : decodeRune (c :: u) = decodeRune (b :: t) := by
        rw [hLt]; exact decode_take b t hlen
      have htk : (c :: u).take (decodeRune (b :: t)).2 = (b :: t).take (decodeRune (b :: t)).2 := by
        rw [hLt, List.take_take, Nat.min_eq_left hlen]
      rw [pieces_cons, hdec, htk]
      congr 1
      have : (c :: u).drop (decodeRune (b :: t)).2 = cat A := by
        rw [← hL, List.drop_append_of_le_length (by simp only [List.length_take]; omega)]
        simp [Nat.min_eq_left hw]
      rw [this, ih]

theorem pieces_infix {d : Bytes} {A B C : List (Nat × Bytes)} (h : pieces d = A ++ B ++ C) : pieces (cat B) = B :=
  pieces_tail (pieces_head h)

theorem pieces_charsOf (d : Bytes) : pieces d = charsOf d := by
  induction d using runeInduction with
  | nil => rw [pieces_nil, charsOf]
  | cons b t ih => rw [pieces_cons, charsOf, ih]

/-- Runes are characters. -/
theorem rune_valid (b : UInt8) (t : Bytes) : (decodeRune (b :: t)).1.isValidChar := by
  unfold Nat.isValidChar
  simp only [decodeRune]
  split
  · simp only; omega
  · split
    · simp [runeError]
    · rename_i h80 _ len lo hi hl
      have hb := b.toNat_lt
      split
      · split
        · simp only; omega
        · simp [runeError]
      · rename_i b1 b2 _
        split
        · rename_i hr
          have h1 := b1.toNat_lt
          have h2 := b2.toNat_lt
          simp only [Bool.and_eq_true, inByteRange, decide_eq_true_eq] at hr
          simp only
          unfold leadInfo at hl
          repeat' split at hl
          all_goals first
            | (simp at hl; done)
            | (simp only [Option.some.injEq, Prod.mk.injEq] at hl; omega)
        · simp [runeError]
      · rename_i b1 b2 b3 _
        split
        · rename_i hr
          have h1 := b1.toNat_lt
          have h2 := b2.toNat_lt
          have h3 := b3.toNat_lt
          simp only [Bool.and_eq_true, inByteRange, decide_eq_true_eq] at hr
          simp only
          unfold leadInfo at hl
          repeat' split at hl
          all_goals first
            | (simp at hl; done)
            | (simp only [Option.some.injEq, Prod.mk.injEq] at hl; omega)
        · simp [runeError]
      · simp [runeError]

theorem pieces_valid (d : Bytes) : ∀ p ∈ pieces d, p.1.isValidChar := by
  induction d using runeInduction with
  | nil => simp [pieces_nil]
  | cons b t ih =>
    rw [pieces_cons]
    intro p hp
    rcases List.mem_cons.1 hp with rfl | hp
    · exact rune_valid b t
    · exact ih p hp

theorem ofNat_toNat {n : Nat} (h : n.isValidChar) : (Char.ofNat n).toNat = n := by
  simp [Char.ofNat, h, Char.ofNatAux, Char.toNat]

theorem runesOf_decode (s : Bytes) : runesOf s = (decodeText s).map Char.toNat := by
  rw [runesOf_eq, ← pieces_charsOf, decodeText, List.map_map]
  apply List.map_congr_left
  intro p hp
  exact (ofNat_toNat (pieces_valid s p hp)).symm

theorem decodeText_utf8 (cs : List Char) : decodeText (utf8 cs) = cs := by
  unfold decodeText
  rw [pieces_charsOf, charsOf_utf8, List.map_map]
  conv => rhs; rw [← List.map_id cs]
  apply List.map_congr_left
  intro c _
  exact Char.toNat_inj.1 (ofNat_toNat c.valid)

/-- Lower-casing any bytes gives the lower-cased characters. -/
theorem toLowerText_any (lc : Char → Char) (lower : Nat → Nat) (hl : ∀ c : Char, lower c.toNat = (lc c).toNat)
    (s : Bytes) : toLowerText lower s = utf8 ((decodeText s).map lc) := by
  rw [toLowerText, runesOf_decode, utf8, List.flatMap_map, List.flatMap_map]
  congr 1; funext c
  rw [hl, encodeRune_char]

theorem runs_dropWhile {p : Char → Bool} {x : Char} (hx : p x = false) (l : List Char) :
    maximalRuns p (l.dropWhile (· == x)) = maximalRuns p l := by
  induction l with
  | nil => rfl
  | cons y l ih =>
    by_cases h : y = x
    · subst h
      rw [List.dropWhile_cons_of_pos (by simp), ih]
      unfold maximalRuns
      rw [List.splitOnP_cons_eq_if_modifyHead, if_pos (by simp [hx])]
      rfl
    · rw [List.dropWhile_cons_of_neg (by simpa using h)]

theorem runs_append {p : Char → Bool} {x : Char} (hx : p x = false) (l : List Char) :
    maximalRuns p (l ++ [x]) = maximalRuns p l := by
  unfold maximalRuns
  induction l with
  | nil => simp [List.splitOnP_cons_eq_if_modifyHead, hx]
  | cons y l ih =>
    rw [List.cons_append, List.splitOnP_cons_eq_if_modifyHead, List.splitOnP_cons_eq_if_modifyHead]
    by_cases hy : p y = false
    · rw [if_pos (by simp [hy]), if_pos (by simp [hy])]
      simpa using ih
    · rw [if_neg (by simpa using hy), if_neg (by simpa using hy)]
      have key : ∀ l : List Char, List.splitOnP (fun x => !p x) (l ++ [x]) = List.splitOnP (fun x => !p x) l ++ [[]] := by
        intro l
        induction l with
        | nil => simp [List.splitOnP_cons_eq_if_modifyHead, hx]
        | cons y l ih =>
          rw [List.cons_append, List.splitOnP_cons_eq_if_modifyHead, List.splitOnP_cons_eq_if_modifyHead, ih]
          split
          · rfl
          · have := List.splitOnP_ne_nil (fun x => !p x) l
            cases hh : List.splitOnP (fun x => !p x) l with
            | nil => exact absurd hh this
            | cons a b => rfl
      rw [key]
      have := List.splitOnP_ne_nil (fun x => !p x) l
      cases hh : List.splitOnP (fun x => !p x) l with
      | nil => exact absurd hh this
      | cons a b => simp

theorem runs_trim {p : Char → Bool} {x : Char} (hx : p x = false) (l : List Char) : maximalRuns p (trim x l) = maximalRuns p l := by
  have key : ∀ l : List Char, maximalRuns p (l.reverse.dropWhile (· == x)).reverse = maximalRuns p l := by
    intro l
    induction l using List.reverseRecOn with
    | nil => rfl
    | append_singleton l y ih =>
      rw [List.reverse_append, List.reverse_singleton, List.singleton_append]
      by_cases h : y = x
      · subst h
        rw [List.dropWhile_cons_of_pos (by simp), ih, runs_append hx]
      · rw [List.dropWhile_cons_of_neg (by simpa using h)]
        simp
  unfold trim
  rw [key, runs_dropWhile hx]

/-- The tokenizer of the language model on any bytes. -/
theorem lmTokenize_any (a : Alphabet) (lower : Nat → Nat) (lc : Char → Char)
    (hl : ∀ c : Char, lower c.toNat = (lc c).toNat) (hsp : a.has 32 = false) (s : Bytes) :
    lmTokenize lower a s = .ok ((maximalRuns (fun c => a.has c.toNat) ((decodeText s).map lc)).map utf8) := by
  unfold lmTokenize
  rw [toLowerText_any lc lower hl, trimSpaces_utf8, wordTokenize_utf8, runs_trim hsp]

theorem splitOnP_infix {α : Type} (p : α → Bool) (l : List α) :
    (∀ h t, l.splitOnP p = h :: t → h <+: l) ∧ ∀ run ∈ l.splitOnP p, run <:+: l := by
  induction l with
  | nil =>
    constructor
    · intro h t he; simp at he; simp [he.1]
    · intro run hr; simp at hr; simp [hr]
  | cons x l ih =>
    rw [List.splitOnP_cons_eq_if_modifyHead]
    split
    · constructor
      · intro h t he; simp only [List.cons.injEq] at he; rw [← he.1]; exact List.nil_prefix
      · intro run hr
        rcases List.mem_cons.1 hr with rfl | hr
        · exact List.nil_infix
        · exact (ih.2 run hr).trans (List.suffix_cons x l).isInfix
    · have hne := List.splitOnP_ne_nil p l
      cases hs : l.splitOnP p with
      | nil => exact absurd hs hne
      | cons a as =>
        have hp : x :: a <+: x :: l := List.cons_prefix_cons.2 ⟨rfl, ih.1 a as hs⟩
        constructor
        · intro h t he
          simp only [List.modifyHead_cons, List.cons.injEq] at he
          rw [← he.1]; exact hp
        · intro run hr
          simp only [List.modifyHead_cons] at hr
          rcases List.mem_cons.1 hr with rfl | hr
          · exact hp.isInfix
          · exact (ih.2 run (by rw [hs]; simp [hr])).trans (List.suffix_cons x l).isInfix

theorem splitOnP_congr {α : Type} {p q : α → Bool} : ∀ {l : List α}, (∀ x ∈ l, p x = q x) → l.splitOnP p = l.splitOnP q := by
  intro l
  induction l with
  | nil => intro _; rfl
  | cons x l ih =>
    intro h
    rw [List.splitOnP_cons_eq_if_modifyHead, List.splitOnP_cons_eq_if_modifyHead, h x (by simp), ih fun y hy => h y (by simp [hy])]

/-- The sentences of a text as bytes are, decoded, the sentences of the decoded text. -/
theorem sentences_decode {sep : Nat → Bool} (text : Bytes) :
    (sentences sep text).map decodeText = maximalRuns (fun c => !sep c.toNat) (decodeText text) := by
  conv => rhs; unfold decodeText
  rw [maximalRuns_map]
  unfold sentences maximalRuns
  have h1 : (pieces text).splitOnP (fun x => !((fun c : Char => !sep c.toNat) ∘ fun p : Nat × Bytes => Char.ofNat p.1) x) =
      (pieces text).splitOnP fun p => sep p.1 := splitOnP_congr fun p hp => by
    simp [ofNat_toNat (pieces_valid text p hp)]
  rw [h1, List.map_map]
  apply List.map_congr_left
  intro run hr
  obtain ⟨A, C, h⟩ := (splitOnP_infix _ _).2 run (List.mem_filter.1 hr).1
  show decodeText (cat run) = _
  unfold decodeText
  rw [pieces_infix h.symm]

/-- Tokenizing never fails if no sentence makes it fail. -/
theorem tokenizeAll_ok {tok : Tokenizer} {f : Bytes → List Bytes} (h : ∀ s, tok s = .ok (f s)) : ∀ l, tokenizeAll tok l = .ok (l.map f)
  | [] => rfl
  | s :: l => by rw [tokenizeAll, h, tokenizeAll_ok h l]; rfl

/-! ### sizes -/

theorem runs_length {α : Type} (p : α → Bool) (l : List α) : (((maximalRuns p l).map List.length).sum ≤ l.length) ∧
    (∀ w ∈ maximalRuns p l, w ≠ [] ∧ ∀ x ∈ w, p x = true) := by
  constructor
  · have key : ∀ l : List α, (((l.splitOnP fun x => !p x).map List.length).sum ≤ l.length) := by
      intro l
      induction l with
      | nil => simp
      | cons x l ih =>
        rw [List.splitOnP_cons_eq_if_modifyHead]
        split
        · simp only [List.map_cons, List.length_nil, List.sum_cons, List.length_cons]; omega
        · cases hs : l.splitOnP fun x => !p x with
          | nil => simp
          | cons a as =>
            rw [hs] at ih
            simp only [List.modifyHead_cons, List.map_cons, List.sum_cons, List.length_cons] at ih ⊢
            omega
    refine Nat.le_trans ?_ (key l)
    unfold maximalRuns
    generalize (l.splitOnP fun x => !p x) = L
    induction L with
    | nil => simp
    | cons a L ih =>
      rw [List.filter_cons]
      split
      · simp only [List.map_cons, List.sum_cons]; omega
      · simp only [List.map_cons, List.sum_cons]; omega
  · intro w hw
    obtain ⟨h1, h2⟩ := List.mem_filter.1 hw
    refine ⟨by simpa using h2, ?_⟩
    intro x hx
    have key : ∀ l : List α, ∀ w ∈ l.splitOnP (fun x => !p x), ∀ x ∈ w, p x = true := by
      intro l
      induction l with
      | nil => intro w hw; simp at hw; simp [hw]
      | cons y l ih =>
        intro w hw x hx
        rw [List.splitOnP_cons_eq_if_modifyHead] at hw
        split at hw
        · rcases List.mem_cons.1 hw with rfl | hw
          · simp at hx
          · exact ih w hw x hx
        · rename_i hy
          cases hs : l.splitOnP fun x => !p x with
          | nil => rw [hs] at hw; simp at hw
          | cons a as =>
            rw [hs] at hw ih
            simp only [List.modifyHead_cons] at hw
            rcases List.mem_cons.1 hw with rfl | hw
            · rcases List.mem_cons.1 hx with rfl | hx
              · simpa using hy
              · exact ih a (by simp) x hx
            · exact ih w (by simp [hw]) x hx
    exact key l w h1 x hx

/-- A text has at most three tokens for every character (with the start and end symbols of its sentences). -/
theorem tokens_le (letter sep : Char → Bool) (lc : Char → Char) (text : List Char) :
    corpusTokens ((textSentences letter sep lc text).map fun s => s.map utf8) ≤ 3 * text.length := by
  unfold corpusTokens textSentences
  have h := (runs_length (fun c => !sep c) text).1
  refine Nat.le_trans ?_ (Nat.mul_le_mul_left 3 h)
  have hne := (runs_length (fun c => !sep c) text).2
  generalize maximalRuns (fun c => !sep c) text = L at hne
  clear h
  induction L with
  | nil => simp
  | cons s L ih =>
    have ih := ih fun w hw => hne w (by simp [hw])
    have hs := (runs_length letter (s.map lc)).1
    have hs2 := (runs_length letter (s.map lc)).2
    have hlen : (maximalRuns letter (s.map lc)).length ≤ s.length := by
      rw [List.length_map] at hs
      refine Nat.le_trans ?_ hs
      generalize maximalRuns letter (s.map lc) = W at hs2
      clear hs
      induction W with
      | nil => simp
      | cons w W ih =>
        have := ih fun v hv => hs2 v (by simp [hv])
        have hw := List.length_pos_iff.2 (hs2 w (by simp)).1
        simp only [List.map_cons, List.sum_cons, List.length_cons]; omega
    have hsp := List.length_pos_iff.2 (hne s (by simp)).1
    simp only [List.map_cons, List.filter_cons, List.sum_cons]
    split
    · simp only [List.map_cons, List.sum_cons, List.length_map]
      omega
    · omega

theorem decodeText_length (text : Bytes) : (decodeText text).length ≤ text.length := by
  unfold decodeText
  rw [List.length_map]
  induction text using runeInduction with
  | nil => simp [pieces_nil]
  | cons b t ih =>
    rw [pieces_cons]
    have := decodeRune_width_pos b t
    have := decode_width b t
    simp only [List.length_cons, List.length_drop] at ih ⊢
    simp only [List.length_cons] at this
    omega

/-- A word of letters other than blank, tab and newline can stand in a line. -/
theorem plain_utf8 {w : List Char} (h : ∀ c ∈ w, c ≠ ' ' ∧ c ≠ '\t' ∧ c ≠ '\n') : PlainWord (utf8 w) := by
  have key : ∀ (x : UInt8) (d : Char), x.toNat < 128 → d.toNat = x.toNat → (∀ c ∈ w, c ≠ d) → x ∉ utf8 w := by
    intro x d hx hd hw hm
    obtain ⟨c, hc, hxc⟩ := List.mem_flatMap.1 hm
    rw [← encodeRune_char] at hxc
    have hr := char_range c
    have : c.toNat = x.toNat := by
      generalize c.toNat = v at hxc hr
      unfold encodeRune at hxc
      have hu : ∀ n, n < 256 → (UInt8.ofNat n).toNat = n := fun n hn => by rw [UInt8.toNat_ofNat']; omega
      split at hxc
      · simp only [List.mem_singleton] at hxc
        subst hxc
        rw [hu _ (by omega)]
      · split at hxc
        · simp only [List.mem_cons, List.not_mem_nil, or_false] at hxc
          rcases hxc with rfl | rfl <;> rw [hu _ (by omega)] at hx <;> omega
        · split at hxc
          · omega
          · split at hxc
            · simp only [List.mem_cons, List.not_mem_nil, or_false] at hxc
              rcases hxc with rfl | rfl | rfl <;> rw [hu _ (by omega)] at hx <;> omega
            · simp only [List.mem_cons, List.not_mem_nil, or_false] at hxc
              rcases hxc with rfl | rfl | rfl | rfl <;> rw [hu _ (by omega)] at hx <;> omega
    exact hw c hc (Char.toNat_inj.1 (this.trans hd.symm))
  exact ⟨key 32 ' ' (by decide) rfl fun c hc => (h c hc).1, key 9 '\t' (by decide) rfl fun c hc => (h c hc).2.1,
    key 10 '\n' (by decide) rfl fun c hc => (h c hc).2.2⟩

end Verif.Corpus
