import Verif.Proofs.Scanner
import Mathlib.Data.List.Induction
namespace Verif.Sent
open Verif Verif.Scan Verif.Spec

/-- The bytes of a list of pieces. -/
def cat (ps : List (Nat × Bytes)) : Bytes := ps.flatMap Prod.snd

theorem cat_append (a b : List (Nat × Bytes)) : cat (a ++ b) = cat a ++ cat b := by simp [cat]
theorem cat_cons (p : Nat × Bytes) (b : List (Nat × Bytes)) : cat (p :: b) = p.2 ++ cat b := by simp [cat]
theorem cat_nil : cat [] = [] := rfl

theorem leadInfo_spec {b len lo hi : Nat} (h : leadInfo b = some (len, lo, hi)) :
    (len = 2 ∨ len = 3 ∨ len = 4) ∧ 0x80 ≤ lo ∧ hi ≤ 0xBF := by
  unfold leadInfo at h
  repeat' split at h
  all_goals first
    | (simp at h; done)
    | (simp only [Option.some.injEq, Prod.mk.injEq] at h; obtain ⟨rfl, rfl, rfl⟩ := h; omega)

theorem leadInfo_cont {b : UInt8} (h1 : 0x80 ≤ b.toNat) (h2 : b.toNat ≤ 0xBF) : leadInfo b.toNat = none := by
  unfold leadInfo; rw [if_pos (by omega)]

theorem decode_cont {b : UInt8} {t : Bytes} (h1 : 0x80 ≤ b.toNat) (h2 : b.toNat ≤ 0xBF) :
    decodeRune (b :: t) = (runeError, 1) := by
  have : ¬ b.toNat < 0x80 := by omega
  simp [decodeRune, this, leadInfo_cont h1 h2]

theorem inRange_cont {lo hi : Nat} {b : UInt8} (hlo : 0x80 ≤ lo) (hhi : hi ≤ 0xBF) (h : inByteRange lo hi b = true) :
    0x80 ≤ b.toNat ∧ b.toNat ≤ 0xBF := by
  simp only [inByteRange, Bool.and_eq_true, decide_eq_true_eq] at h
  omega

theorem decode_width (b : UInt8) (t : Bytes) : (decodeRune (b :: t)).2 ≤ (b :: t).length := by
  simp only [decodeRune]
  split
  · simp
  · split
    · simp
    · split <;> (try split) <;> simp

/-- More bytes after `d` change the first rune of `d` only if `d` is at most three bytes that do not form a rune. -/
theorem decode_append (b : UInt8) (t m : Bytes) : decodeRune (b :: t ++ m) = decodeRune (b :: t) ∨
    ((b :: t).length ≤ 3 ∧ ∀ k, k < (b :: t).length → decodeRune ((b :: t).drop k) = (runeError, 1)) := by
  by_cases h80 : b.toNat < 0x80
  · left; simp [decodeRune, h80]
  cases hl : leadInfo b.toNat with
  | none => left; simp [decodeRune, h80, hl]
  | some q =>
    obtain ⟨len, lo, hi⟩ := q
    obtain ⟨hlen, hlo, hhi⟩ := leadInfo_spec hl
    rcases hlen with rfl | rfl | rfl
    · cases t with
      | nil =>
        right
        refine ⟨by simp, fun k hk => ?_⟩
        have : k = 0 := by simpa using hk
        subst this
        simp [decodeRune, h80, hl]
      | cons b1 t => left; simp [decodeRune, h80, hl]
    · match t with
      | [] =>
        right
        refine ⟨by simp, fun k hk => ?_⟩
        have : k = 0 := by simpa using hk
        subst this
        simp [decodeRune, h80, hl]
      | [b1] =>
        by_cases hr : inByteRange lo hi b1 = true
        · right
          obtain ⟨c1, c2⟩ := inRange_cont hlo hhi hr
          refine ⟨by simp, fun k hk => ?_⟩
          have : k = 0 ∨ k = 1 := by simp at hk; omega
          rcases this with rfl | rfl
          · simp [decodeRune, h80, hl]
          · exact decode_cont c1 c2
        · left
          cases m with
          | nil => simp
          | cons c m => simp [decodeRune, h80, hl, hr]
      | b1 :: b2 :: t => left; simp [decodeRune, h80, hl]
    · match t with
      | [] =>
        right
        refine ⟨by simp, fun k hk => ?_⟩
        have : k = 0 := by simpa using hk
        subst this
        simp [decodeRune, h80, hl]
      | [b1] =>
        by_cases hr : inByteRange lo hi b1 = true
        · right
          obtain ⟨c1, c2⟩ := inRange_cont hlo hhi hr
          refine ⟨by simp, fun k hk => ?_⟩
          have : k = 0 ∨ k = 1 := by simp at hk; omega
          rcases this with rfl | rfl
          · simp [decodeRune, h80, hl]
          · exact decode_cont c1 c2
        · left
          match m with
          | [] => simp
          | [c] => simp [decodeRune, h80, hl]
          | c :: c' :: m => simp [decodeRune, h80, hl, hr]
      | [b1, b2] =>
        by_cases hr : inByteRange lo hi b1 = true
        · by_cases hr2 : inByteRange 0x80 0xBF b2 = true
          · right
            obtain ⟨c1, c2⟩ := inRange_cont hlo hhi hr
            obtain ⟨c3, c4⟩ := inRange_cont (Nat.le_refl _) (Nat.le_refl _) hr2
            refine ⟨by simp, fun k hk => ?_⟩
            have : k = 0 ∨ k = 1 ∨ k = 2 := by simp at hk; omega
            rcases this with rfl | rfl | rfl
            · simp [decodeRune, h80, hl]
            · exact decode_cont c1 c2
            · exact decode_cont c3 c4
          · left
            cases m with
            | nil => simp
            | cons c m => simp [decodeRune, h80, hl, hr, hr2]
        · left
          cases m with
          | nil => simp
          | cons c m => simp [decodeRune, h80, hl, hr]
      | b1 :: b2 :: b3 :: t => left; simp [decodeRune, h80, hl]

theorem pieces_cons (b : UInt8) (t : Bytes) : pieces (b :: t) =
    ((decodeRune (b :: t)).1, (b :: t).take (decodeRune (b :: t)).2) :: pieces ((b :: t).drop (decodeRune (b :: t)).2) := by
  rw [pieces]

theorem pieces_nil : pieces [] = [] := by rw [pieces]

/-- Induction along the runes of a text. -/
theorem runeInduction {P : Bytes → Prop} (nil : P [])
    (cons : ∀ b t, P ((b :: t).drop (decodeRune (b :: t)).2) → P (b :: t)) : ∀ d, P d := by
  intro d
  induction hn : d.length using Nat.strong_induction_on generalizing d with
  | _ n ih =>
    cases d with
    | nil => exact nil
    | cons b t =>
      apply cons
      refine ih _ ?_ _ rfl
      have := decodeRune_width_pos b t
      have := decode_width b t
      simp only [List.length_drop]; omega

theorem cat_pieces (d : Bytes) : cat (pieces d) = d := by
  induction d using runeInduction with
  | nil => simp [pieces_nil, cat]
  | cons b t ih => rw [pieces_cons, cat_cons, ih]; simp

theorem pieces_nonempty (d : Bytes) : ∀ p ∈ pieces d, p.2 ≠ [] := by
  induction d using runeInduction with
  | nil => simp [pieces_nil]
  | cons b t ih =>
    rw [pieces_cons]
    intro p hp
    rcases List.mem_cons.1 hp with rfl | hp
    · have := decodeRune_width_pos b t
      simp only [ne_eq, List.take_eq_nil_iff, reduceCtorEq, or_false]; omega
    · exact ih p hp

/-- A text that decodes to errors everywhere. -/
theorem pieces_error {d : Bytes} (h : ∀ k, k < d.length → decodeRune (d.drop k) = (runeError, 1)) :
    ∀ p ∈ pieces d, p.1 = runeError := by
  induction d using runeInduction with
  | nil => simp [pieces_nil]
  | cons b t ih =>
    have h0 := h 0 (by simp)
    simp only [List.drop_zero] at h0
    rw [pieces_cons]
    intro p hp
    rcases List.mem_cons.1 hp with rfl | hp
    · simp [h0]
    · refine ih (fun k hk => ?_) p hp
      rw [List.drop_drop]
      apply h
      simp only [List.length_drop] at hk
      omega

theorem pieces_tail {d : Bytes} {A B : List (Nat × Bytes)} (h : pieces d = A ++ B) : pieces (cat B) = B := by
  induction d using runeInduction generalizing A with
  | nil =>
    rw [pieces_nil] at h
    have : B = [] := by simp at h; exact h.2
    subst this; simp [cat, pieces_nil]
  | cons b t ih =>
    cases A with
    | nil =>
      simp only [List.nil_append] at h
      rw [← h, cat_pieces]
    | cons a A =>
      rw [pieces_cons] at h
      simp only [List.cons_append, List.cons.injEq] at h
      exact ih h.2

/-- A proper rune is the same whatever follows. -/
theorem pieces_append {d m : Bytes} {A B : List (Nat × Bytes)} {p : Nat × Bytes} (h : pieces d = A ++ p :: B)
    (hp : p.1 ≠ runeError) : pieces (d ++ m) = A ++ p :: pieces (cat B ++ m) := by
  induction d using runeInduction generalizing A with
  | nil => rw [pieces_nil] at h; simp at h
  | cons b t ih =>
    have hw := decode_width b t
    rcases decode_append b t m with he | ⟨-, he⟩
    · rw [List.cons_append, pieces_cons]
      rw [← List.cons_append, he, List.take_append_of_le_length hw, List.drop_append_of_le_length hw]
      rw [pieces_cons] at h
      cases A with
      | nil =>
        simp only [List.nil_append, List.cons.injEq] at h ⊢
        refine ⟨h.1, ?_⟩
        rw [← h.2, cat_pieces]
      | cons a A =>
        simp only [List.cons_append, List.cons.injEq] at h ⊢
        exact ⟨h.1, ih h.2⟩
    · exact absurd (pieces_error he p (by rw [h]; simp)) hp

/-- All but at most three bytes are the same whatever follows. -/
theorem pieces_partial (d m : Bytes) : ∃ A B, pieces d = A ++ B ∧ (cat B).length ≤ 3 ∧
    pieces (d ++ m) = A ++ pieces (cat B ++ m) := by
  induction d using runeInduction with
  | nil => exact ⟨[], [], by simp [pieces_nil], by simp [cat], by simp [cat]⟩
  | cons b t ih =>
    have hw := decode_width b t
    rcases decode_append b t m with he | ⟨hl, he⟩
    · obtain ⟨A, B, h1, h2, h3⟩ := ih
      refine ⟨((decodeRune (b :: t)).1, (b :: t).take (decodeRune (b :: t)).2) :: A, B, ?_, h2, ?_⟩
      · rw [pieces_cons, h1]; rfl
      · rw [List.cons_append, pieces_cons]
        rw [← List.cons_append, he, List.take_append_of_le_length hw, List.drop_append_of_le_length hw, h3]
        rfl
    · exact ⟨[], pieces (b :: t), rfl, by rw [cat_pieces]; exact hl, by rw [cat_pieces]; rfl⟩

/-! ### Sentences of a list of pieces -/

/-- The sentences of a list of pieces. -/
def sentP (sep : Nat → Bool) (ps : List (Nat × Bytes)) : List Bytes :=
  ((ps.splitOnP fun p => sep p.1).filter fun run => !run.isEmpty).map cat

theorem sentences_eq (sep : Nat → Bool) (d : Bytes) : sentences sep d = sentP sep (pieces d) := rfl

theorem sentP_nil (sep : Nat → Bool) : sentP sep [] = [] := by simp [sentP]

theorem sentP_sep {sep : Nat → Bool} {p : Nat × Bytes} (hp : sep p.1 = true) (ps : List (Nat × Bytes)) :
    sentP sep (p :: ps) = sentP sep ps := by
  simp [sentP, List.splitOnP_cons_eq_if_modifyHead, hp]

theorem sentP_seps {sep : Nat → Bool} {S : List (Nat × Bytes)} (hS : ∀ p ∈ S, sep p.1 = true) (ps : List (Nat × Bytes)) :
    sentP sep (S ++ ps) = sentP sep ps := by
  induction S with
  | nil => rfl
  | cons p S ih =>
    rw [List.cons_append, sentP_sep (hS p (by simp)), ih fun q hq => hS q (by simp [hq])]

theorem sentP_run {sep : Nat → Bool} {A : List (Nat × Bytes)} (hA : ∀ p ∈ A, sep p.1 = false) (hne : A ≠ [])
    {p : Nat × Bytes} (hp : sep p.1 = true) (ps : List (Nat × Bytes)) :
    sentP sep (A ++ p :: ps) = cat A :: sentP sep ps := by
  unfold sentP
  rw [List.splitOnP_append_cons_of_forall_mem hA p hp]
  simp [hne]

theorem sentP_last {sep : Nat → Bool} {A : List (Nat × Bytes)} (hA : ∀ p ∈ A, sep p.1 = false) (hne : A ≠ []) :
    sentP sep A = [cat A] := by
  unfold sentP
  rw [List.splitOnP_eq_singleton hA]
  simp [hne]

theorem skip_spec (sep : Nat → Bool) (d : Bytes) : ∃ S R, pieces d = S ++ R ∧ (∀ p ∈ S, sep p.1 = true) ∧
    (∀ p, R.head? = some p → sep p.1 = false) ∧ skipSeparators sep d = (cat S).length ∧
    d.drop (skipSeparators sep d) = cat R := by
  induction d using runeInduction with
  | nil => exact ⟨[], [], by simp [pieces_nil], by simp, by simp, by simp [skipSeparators, cat], by simp [cat]⟩
  | cons b t ih =>
    rw [skipSeparators]
    by_cases h : sep (decodeRune (b :: t)).1 = true
    · obtain ⟨S, R, h1, h2, h3, h4, h5⟩ := ih
      have hw := decode_width b t
      rw [if_pos h]
      refine ⟨((decodeRune (b :: t)).1, (b :: t).take (decodeRune (b :: t)).2) :: S, R, ?_, ?_, h3, ?_, ?_⟩
      · rw [pieces_cons, h1]; rfl
      · intro p hp
        rcases List.mem_cons.1 hp with rfl | hp
        · exact h
        · exact h2 p hp
      · rw [cat_cons, List.length_append, ← h4, List.length_take, Nat.min_eq_left hw]
      · rw [← List.drop_drop, h5]
    · rw [if_neg h]
      refine ⟨[], pieces (b :: t), rfl, by simp, ?_, by simp [cat], by simp [cat_pieces]⟩
      intro p hp
      rw [pieces_cons] at hp
      simp only [List.head?_cons, Option.some.injEq] at hp
      subst hp
      simpa using h

theorem find_spec (sep : Nat → Bool) (d : Bytes) :
    match findSeparator sep d with
    | none => ∀ p ∈ pieces d, sep p.1 = false
    | some (i, w) => ∃ A p B, pieces d = A ++ p :: B ∧ (∀ q ∈ A, sep q.1 = false) ∧ sep p.1 = true ∧
        i = (cat A).length ∧ w = p.2.length := by
  induction d using runeInduction with
  | nil => simp [findSeparator, pieces_nil]
  | cons b t ih =>
    rw [findSeparator]
    have hw := decode_width b t
    by_cases h : sep (decodeRune (b :: t)).1 = true
    · rw [if_pos h]
      refine ⟨[], _, _, by rw [pieces_cons]; rfl, by simp, h, by simp [cat], ?_⟩
      simp only [List.length_take]; omega
    · rw [if_neg h]
      cases hf : findSeparator sep ((b :: t).drop (decodeRune (b :: t)).2) with
      | none =>
        rw [hf] at ih
        simp only at ih ⊢
        intro p hp
        rw [pieces_cons] at hp
        rcases List.mem_cons.1 hp with rfl | hp
        · simpa using h
        · exact ih p hp
      | some iw =>
        obtain ⟨i, w⟩ := iw
        rw [hf] at ih
        simp only at ih ⊢
        obtain ⟨A, p, B, h1, h2, h3, h4, h5⟩ := ih
        refine ⟨((decodeRune (b :: t)).1, (b :: t).take (decodeRune (b :: t)).2) :: A, p, B, ?_, ?_, h3, ?_, h5⟩
        · rw [pieces_cons, h1]; rfl
        · intro q hq
          rcases List.mem_cons.1 hq with rfl | hq
          · simpa using h
          · exact h2 q hq
        · rw [cat_cons, List.length_append, ← h4, List.length_take, Nat.min_eq_left hw]

/-- The two outcomes of `scanSentence`: a run that ends with a separator, or no separator after the leading ones. -/
theorem scanSentence_cases (sep : Nat → Bool) (d : Bytes) :
    (∃ S A p B, pieces d = S ++ (A ++ p :: B) ∧ (∀ q ∈ S, sep q.1 = true) ∧ (∀ q ∈ A, sep q.1 = false) ∧ A ≠ [] ∧
      sep p.1 = true ∧
      ∀ eof, scanSentence sep d eof = ((cat (S ++ (A ++ [p]))).length, some (cat A))) ∨
    (∃ S A, pieces d = S ++ A ∧ (∀ q ∈ S, sep q.1 = true) ∧ (∀ q ∈ A, sep q.1 = false) ∧
      scanSentence sep d false = ((cat S).length, none) ∧
      scanSentence sep d true = if A = [] then ((cat S).length, none) else (d.length, some (cat A))) := by
  obtain ⟨S, R, h1, h2, h3, h4, h5⟩ := skip_spec sep d
  have hR : pieces (cat R) = R := pieces_tail h1
  have hf := find_spec sep (cat R)
  cases hfs : findSeparator sep (cat R) with
  | none =>
    rw [hfs] at hf
    simp only at hf
    rw [hR] at hf
    right
    refine ⟨S, R, h1, h2, hf, ?_, ?_⟩
    · simp only [scanSentence, h5, hfs]
      simp [h4]
    · have hd : d = cat S ++ cat R := by rw [← cat_append, ← h1, cat_pieces]
      simp only [scanSentence, h5, hfs]
      rw [h4]
      by_cases hRe : R = []
      · subst hRe
        simp only [cat_nil, List.append_nil] at hd
        simp [hd]
      · have hpos : 0 < (cat R).length := by
          cases R with
          | nil => exact absurd rfl hRe
          | cons q R =>
            have hq : q.2 ≠ [] := pieces_nonempty d q (by rw [h1]; simp)
            have := List.length_pos_of_ne_nil hq
            simp only [cat_cons, List.length_append]; omega
        have : (cat S).length < d.length := by
          have := congrArg List.length hd
          simp only [List.length_append] at this; omega
        simp [this, hRe]
  | some iw =>
    obtain ⟨i, w⟩ := iw
    rw [hfs] at hf
    simp only at hf
    rw [hR] at hf
    obtain ⟨A, p, B, g1, g2, g3, g4, g5⟩ := hf
    left
    have hA : A ≠ [] := by
      rintro rfl
      have := h3 p (by rw [g1]; rfl)
      rw [g3] at this; simp at this
    refine ⟨S, A, p, B, by rw [h1, g1], h2, g2, hA, g3, ?_⟩
    intro eof
    simp only [scanSentence, h5, hfs]
    rw [h4, g4, g5]
    have : (cat R).take (cat A).length = cat A := by rw [g1, cat_append]; simp
    rw [this]
    simp only [cat_append, cat_cons, cat_nil, List.append_nil, List.length_append, Nat.add_assoc]

theorem drop_cat {d : Bytes} {A B : List (Nat × Bytes)} (h : pieces d = A ++ B) : d.drop (cat A).length = cat B := by
  have : d = cat A ++ cat B := by rw [← cat_append, ← h, cat_pieces]
  rw [this]; simp

theorem len_cat {d : Bytes} {A B : List (Nat × Bytes)} (h : pieces d = A ++ B) : (cat A).length ≤ d.length := by
  have : d = cat A ++ cat B := by rw [← cat_append, ← h, cat_pieces]
  rw [this]; simp

/-- What follows leading separators of `d` in `d ++ m`. -/
theorem sentences_skip {sep : Nat → Bool} (hsep : sep runeError = false) {d : Bytes} {S A : List (Nat × Bytes)}
    (h : pieces d = S ++ A) (hS : ∀ q ∈ S, sep q.1 = true) (m : Bytes) :
    sentences sep (d ++ m) = sentences sep (cat A ++ m) := by
  rcases List.eq_nil_or_concat S with rfl | ⟨S', p, rfl⟩
  · simp only [List.nil_append] at h
    rw [← h, cat_pieces]
  · have hp : sep p.1 = true := hS p (by simp)
    have hpe : p.1 ≠ runeError := by intro e; rw [e, hsep] at hp; simp at hp
    have h' : pieces d = S' ++ p :: A := by rw [h]; simp
    rw [sentences_eq, pieces_append h' hpe]
    have : S' ++ p :: pieces (cat A ++ m) = (S' ++ [p]) ++ pieces (cat A ++ m) := by simp
    rw [this, sentP_seps (by simpa using hS), ← sentences_eq]

theorem scanSentence_ok {sep : Nat → Bool} (hsep : sep runeError = false) :
    SplitOk (scanSentence sep) (sentences sep) where
  eofToken := by
    intro d a t h
    rcases scanSentence_cases sep d with ⟨S, A, p, B, h1, h2, h3, h4, h5, h6⟩ | ⟨S, A, h1, h2, h3, h4, h5⟩
    · rw [h6] at h
      simp only [Prod.mk.injEq, Option.some.injEq] at h
      obtain ⟨rfl, rfl⟩ := h
      have e : pieces d = (S ++ (A ++ [p])) ++ B := by rw [h1]; simp
      refine ⟨?_, len_cat e, ?_⟩
      · have hp := pieces_nonempty d p (by rw [h1]; simp)
        have := List.length_pos_of_ne_nil hp
        simp only [cat_append, cat_cons, List.length_append]; omega
      · rw [drop_cat e, sentences_eq, h1, sentP_seps h2, sentP_run h3 h4 h5, sentences_eq, pieces_tail e]
    · rw [h5] at h
      split at h
      · simp at h
      · rename_i hA
        simp only [Prod.mk.injEq, Option.some.injEq] at h
        obtain ⟨rfl, rfl⟩ := h
        refine ⟨?_, Nat.le_refl _, ?_⟩
        · cases A with
          | nil => exact absurd rfl hA
          | cons q A =>
            have hq := pieces_nonempty d q (by rw [h1]; simp)
            have h0 := List.length_pos_of_ne_nil hq
            have := congrArg List.length (cat_pieces d)
            rw [h1] at this
            simp only [cat_append, cat_cons, List.length_append] at this
            omega
        · rw [List.drop_length, sentences_eq, h1, sentP_seps h2, sentP_last h3 hA, sentences_eq, pieces_nil, sentP_nil]
  eofNone := by
    intro d a h
    rcases scanSentence_cases sep d with ⟨S, A, p, B, h1, h2, h3, h4, h5, h6⟩ | ⟨S, A, h1, h2, h3, h4, h5⟩
    · rw [h6] at h; simp at h
    · rw [h5] at h
      split at h
      · rename_i hA
        subst hA
        rw [sentences_eq, h1, sentP_seps h2, sentP_nil]
      · simp at h
  token := by
    intro d a t h
    rcases scanSentence_cases sep d with ⟨S, A, p, B, h1, h2, h3, h4, h5, h6⟩ | ⟨S, A, h1, h2, h3, h4, h5⟩
    · rw [h6] at h
      simp only [Prod.mk.injEq, Option.some.injEq] at h
      obtain ⟨rfl, rfl⟩ := h
      have e : pieces d = (S ++ (A ++ [p])) ++ B := by rw [h1]; simp
      refine ⟨?_, len_cat e, ?_⟩
      · have hp := pieces_nonempty d p (by rw [h1]; simp)
        have := List.length_pos_of_ne_nil hp
        simp only [cat_append, cat_cons, List.length_append]; omega
      · intro m
        have hpe : p.1 ≠ runeError := by intro e; rw [e, hsep] at h5; simp at h5
        have h1' : pieces d = (S ++ A) ++ p :: B := by rw [h1]; simp
        rw [drop_cat e, sentences_eq, pieces_append h1' hpe, List.append_assoc, sentP_seps h2, sentP_run h3 h4 h5,
          sentences_eq]
    · rw [h4] at h; simp at h
  none := by
    intro d a h
    rcases scanSentence_cases sep d with ⟨S, A, p, B, h1, h2, h3, h4, h5, h6⟩ | ⟨S, A, h1, h2, h3, h4, h5⟩
    · rw [h6] at h; simp at h
    · rw [h4] at h
      simp only [Prod.mk.injEq, and_true] at h
      subst h
      refine ⟨len_cat h1, fun m => ?_⟩
      rw [drop_cat h1]
      exact sentences_skip hsep h1 h2 m

/-- The first run of a list of pieces with a non-separator first is part of the first sentence. -/
theorem sentP_first {sep : Nat → Bool} {A : List (Nat × Bytes)} (hA : ∀ p ∈ A, sep p.1 = false) (hne : A ≠ [])
    (ps : List (Nat × Bytes)) : ∃ x ss, sentP sep (A ++ ps) = (cat A ++ x) :: ss := by
  induction ps using List.reverseRecOn generalizing A with
  | nil => exact ⟨[], [], by rw [List.append_nil, sentP_last hA hne]; simp⟩
  | append_singleton ps p ih =>
    by_cases h : ∀ q ∈ ps ++ [p], sep q.1 = false
    · refine ⟨cat (ps ++ [p]), [], ?_⟩
      rw [sentP_last (by
        intro q hq
        rcases List.mem_append.1 hq with hq | hq
        · exact hA q hq
        · exact h q hq) (by simp [hne]), cat_append]
    · -- split at the first separator
      clear ih
      generalize ps ++ [p] = l at h
      obtain ⟨l1, q, l2, rfl, hq, hl1⟩ : ∃ l1 q l2, l = l1 ++ q :: l2 ∧ sep q.1 = true ∧ ∀ r ∈ l1, sep r.1 = false := by
        induction l with
        | nil => simp at h
        | cons r l ih =>
          by_cases hr : sep r.1 = true
          · exact ⟨[], r, l, rfl, hr, by simp⟩
          · have : ¬ ∀ q ∈ l, sep q.1 = false := by
              intro hh; apply h
              intro q hq
              rcases List.mem_cons.1 hq with rfl | hq
              · simpa using hr
              · exact hh q hq
            obtain ⟨l1, q, l2, e, hq, hl1⟩ := ih this
            refine ⟨r :: l1, q, l2, by rw [e]; rfl, hq, ?_⟩
            intro s hs
            rcases List.mem_cons.1 hs with rfl | hs
            · simpa using hr
            · exact hl1 s hs
      refine ⟨cat l1, sentP sep l2, ?_⟩
      rw [← List.append_assoc, sentP_run _ (by simp [hne]) hq, cat_append]
      intro r hr
      rcases List.mem_append.1 hr with hr | hr
      · exact hA r hr
      · exact hl1 r hr

/-- Every sentence, with a separator of up to four bytes, fits the buffer. -/
def ShortSentences (sep : Nat → Bool) (text : Bytes) : Prop := ∀ s ∈ sentences sep text, s.length ≤ maxTokenSize - 4

/-- If `scanSentence` waits for more data at the first byte, the first sentence takes almost all of the data. -/
theorem stuck_first {sep : Nat → Bool} {d m : Bytes} (hd : d.length = maxTokenSize) (h : scanSentence sep d false = (0, none)) :
    ∃ s ss, sentences sep (d ++ m) = s :: ss ∧ maxTokenSize - 3 ≤ s.length := by
  rcases scanSentence_cases sep d with ⟨S, A, p, B, h1, h2, h3, h4, h5, h6⟩ | ⟨S, A, h1, h2, h3, h4, h5⟩
  · rw [h6] at h; simp at h
  · rw [h4] at h
    simp only [Prod.mk.injEq, and_true] at h
    have hS : S = [] := by
      cases S with
      | nil => rfl
      | cons q S =>
        have hq := pieces_nonempty d q (by rw [h1]; simp)
        have := List.length_pos_of_ne_nil hq
        simp only [cat_cons, List.length_append] at h; omega
    subst hS
    simp only [List.nil_append] at h1
    obtain ⟨A1, A2, g1, g2, g3⟩ := pieces_partial d m
    have hl : (cat A1).length + (cat A2).length = maxTokenSize := by
      rw [← List.length_append, ← cat_append, ← g1, cat_pieces]; exact hd
    have hA1 : A1 ≠ [] := by
      rintro rfl
      simp only [cat_nil, List.length_nil, maxTokenSize] at hl; omega
    obtain ⟨x, ss, hx⟩ := sentP_first (sep := sep) (A := A1) (by
      intro q hq
      exact h3 q (by rw [← h1, g1]; simp [hq])) hA1 (pieces (cat A2 ++ m))
    refine ⟨cat A1 ++ x, ss, by rw [sentences_eq, g3, hx], ?_⟩
    simp only [List.length_append]
    omega

theorem scanSentence_fits {sep : Nat → Bool} (hsep : sep runeError = false) :
    FitsOk (scanSentence sep) (ShortSentences sep) where
  step := by
    intro d m a o hP h
    cases o with
    | some t =>
      obtain ⟨-, -, h3⟩ := (scanSentence_ok hsep).token _ _ _ h
      intro s hs
      exact hP s (by rw [h3 m]; simp [hs])
    | none =>
      obtain ⟨-, h3⟩ := (scanSentence_ok hsep).none _ _ h
      intro s hs
      exact hP s (by rw [h3 m]; exact hs)
  room := by
    intro d m hP hd h
    obtain ⟨s, ss, h1, h2⟩ := stuck_first (m := m) hd h
    have := hP s (by rw [h1]; simp)
    simp only [maxTokenSize] at this h2
    omega

theorem sentence_length {sep : Nat → Bool} {text s : Bytes} (h : s ∈ sentences sep text) : s.length ≤ text.length := by
  obtain ⟨ps, hps⟩ : ∃ ps, ps = pieces text := ⟨_, rfl⟩
  have hl : (cat ps).length = text.length := by rw [hps, cat_pieces]
  rw [sentences_eq, ← hps] at h
  rw [← hl]
  clear hl hps
  simp only [sentP, List.mem_map, List.mem_filter] at h
  obtain ⟨run, ⟨hr, -⟩, rfl⟩ := h
  induction ps generalizing run with
  | nil => simp at hr; subst hr; simp
  | cons p ps ih =>
    rw [List.splitOnP_cons_eq_if_modifyHead] at hr
    split at hr
    · rcases List.mem_cons.1 hr with rfl | hr
      · simp [cat_nil]
      · have := ih run hr
        simp only [cat_cons, List.length_append]; omega
    · obtain ⟨x, xs, hx⟩ := List.exists_cons_of_ne_nil (List.splitOnP_ne_nil (fun p => sep p.1) ps)
      rw [hx] at hr
      simp only [List.modifyHead_cons] at hr
      rcases List.mem_cons.1 hr with rfl | hr
      · have := ih x (by rw [hx]; simp)
        simp only [cat_cons, List.length_append]; omega
      · have := ih run (by rw [hx]; simp [hr])
        simp only [cat_cons, List.length_append]; omega

/-- Short sentences `ts`, then one of more than `maxTokenSize` bytes. -/
def LongSentence (sep : Nat → Bool) (ts : List Bytes) (text : Bytes) : Prop :=
  ∃ long more, sentences sep text = ts ++ long :: more ∧ (∀ t ∈ ts, t.length ≤ maxTokenSize - 4) ∧
    maxTokenSize < long.length

theorem scanSentence_trunc {sep : Nat → Bool} (hsep : sep runeError = false) :
    TruncOk (scanSentence sep) (LongSentence sep) where
  long := by
    rintro ts t ⟨long, more, h1, h2, h3⟩
    have := sentence_length (sep := sep) (text := t) (s := long) (by rw [h1]; simp)
    omega
  token := by
    rintro ts d m a x ⟨long, more, h1, h2, h3⟩ hd h
    obtain ⟨g1, g2, g3⟩ := (scanSentence_ok hsep).token _ _ _ h
    refine ⟨g1, g2, ?_⟩
    rw [g3 m] at h1
    cases ts with
    | nil =>
      exfalso
      simp only [List.nil_append, List.cons.injEq] at h1
      obtain ⟨rfl, -⟩ := h1
      have : x.length ≤ d.length := by
        apply sentence_length (sep := sep)
        have := g3 []
        simp only [List.append_nil] at this
        rw [this]; simp
      omega
    | cons t ts =>
      simp only [List.cons_append, List.cons.injEq] at h1
      obtain ⟨rfl, h1⟩ := h1
      exact ⟨ts, rfl, long, more, h1, fun t ht => h2 t (by simp [ht]), h3⟩
  none := by
    rintro ts d m a ⟨long, more, h1, h2, h3⟩ hd h
    obtain ⟨g1, g2⟩ := (scanSentence_ok hsep).none _ _ h
    refine ⟨g1, ⟨long, more, by rw [← g2 m]; exact h1, h2, h3⟩, ?_⟩
    rintro hne rfl hl
    obtain ⟨s, ss, e1, e2⟩ := stuck_first (m := m) hl h
    cases ts with
    | nil => exact hne rfl
    | cons t ts =>
      rw [h1] at e1
      simp only [List.cons_append, List.cons.injEq] at e1
      obtain ⟨rfl, -⟩ := e1
      have := h2 t (by simp)
      simp only [maxTokenSize] at this e2
      omega

end Verif.Sent
