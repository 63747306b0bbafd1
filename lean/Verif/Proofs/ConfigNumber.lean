import Verif.Proofs.Config
import Mathlib.Data.List.TakeWhile
/- Numbers and white space. -/
namespace Verif.Conf
open Verif Spec Verif.Wire

/-- `q` on characters is `p` on bytes, for ASCII only. -/
structure AsciiPred (p : UInt8 → Bool) (q : Char → Bool) : Prop where
  low : ∀ c : Char, c.toNat < 128 → q c = p (UInt8.ofNat c.toNat)
  high : ∀ c : Char, 128 ≤ c.toNat → q c = false
  bytes : ∀ b : UInt8, 128 ≤ b.toNat → p b = false

theorem span_utf8 {p : UInt8 → Bool} {q : Char → Bool} (h : AsciiPred p q) (t : List Char) :
    (utf8 t).takeWhile p = utf8 (t.takeWhile q) ∧ (utf8 t).dropWhile p = utf8 (t.dropWhile q) := by
  induction t with
  | nil => exact ⟨rfl, rfl⟩
  | cons c cs ih =>
    by_cases hc : c.toNat < 128
    · rw [utf8_ascii hc, List.takeWhile_cons, List.dropWhile_cons, List.takeWhile_cons, List.dropWhile_cons, ← h.low c hc]
      cases q c with
      | true =>
        simp only [if_true]
        exact ⟨by rw [utf8_ascii hc, ih.1], ih.2⟩
      | false =>
        simp only [Bool.false_eq_true, if_false]
        exact ⟨rfl, (utf8_ascii hc cs).symm⟩
    · obtain ⟨b, bs, e, hb⟩ := encode_high (c := c) (by omega)
      have hu : utf8 (c :: cs) = b :: (bs ++ utf8 cs) := by rw [utf8_cons, e]; rfl
      rw [hu, List.takeWhile_cons, List.dropWhile_cons, List.takeWhile_cons, List.dropWhile_cons, h.high c (by omega), h.bytes b hb]
      simp only [Bool.false_eq_true, if_false]
      exact ⟨rfl, hu.symm⟩

/-- A decimal digit. -/
def cDigit (c : Char) : Bool := decide ('0' ≤ c) && decide (c ≤ '9')

theorem cDigit_iff {c : Char} : cDigit c = true ↔ 48 ≤ c.toNat ∧ c.toNat ≤ 57 := by
  simp only [cDigit, Bool.and_eq_true, decide_eq_true_eq]
  exact Iff.rfl

theorem ofNat_toNat {n : Nat} (h : n < 256) : (UInt8.ofNat n).toNat = n := by simp; omega

theorem digit_pred : AsciiPred isDigit cDigit where
  low c hc := by
    rw [Bool.eq_iff_iff, cDigit_iff]
    simp only [isDigit, Bool.and_eq_true, decide_eq_true_eq]
    rw [ofNat_toNat (by omega)]
  high c hc := by
    rw [Bool.eq_false_iff, Ne, cDigit_iff]
    omega
  bytes b hb := by
    rw [Bool.eq_false_iff]
    simp only [isDigit, Bool.and_eq_true, decide_eq_true_eq, Ne]
    omega

/-- White space. -/
def cBlank (c : Char) : Bool := c == ' ' || c == '\t' || c == '\r' || c == '\n'

theorem blank_low : ∀ c < 128, cBlank (Char.ofNat c) = isBlank (UInt8.ofNat c) := by decide +kernel

theorem blank_pred : AsciiPred isBlank cBlank where
  low c hc := by
    have := blank_low c.toNat hc
    rwa [Char.ofNat_toNat] at this
  high c hc := by
    rw [Bool.eq_false_iff]
    intro h
    simp only [cBlank, Bool.or_eq_true, beq_iff_eq] at h
    rcases h with ((rfl | rfl) | rfl) | rfl <;> revert hc <;> decide
  bytes b hb := by
    rw [Bool.eq_false_iff]
    intro h
    simp only [isBlank, Bool.or_eq_true, beq_iff_eq] at h
    rcases h with ((rfl | rfl) | rfl) | rfl <;> revert hb <;> decide

theorem blanks_iff {t : List Char} : Blanks t ↔ ∀ c ∈ t, cBlank c = true := by
  unfold Blanks
  simp only [cBlank, Bool.or_eq_true, beq_iff_eq, or_assoc]

/-! ### white space -/

theorem skip_append {b : List Char} (hb : Blanks b) (s : Bytes) : skipBlank (utf8 b ++ s) = skipBlank s := by
  induction b with
  | nil => rfl
  | cons c cs ih =>
    have hc := blanks_iff.1 hb c (by simp)
    have hlow : c.toNat < 128 := by
      by_contra h
      rw [blank_pred.high c (by omega)] at hc
      cases hc
    rw [utf8_ascii hlow, List.cons_append]
    unfold skipBlank
    rw [List.dropWhile_cons, ← blank_pred.low c hlow, hc]
    simp only [if_true]
    exact ih fun x hx => hb x (by simp [hx])

theorem skip_utf8 (t : List Char) : ∃ b post, t = b ++ post ∧ Blanks b ∧ skipBlank (utf8 t) = utf8 post := by
  refine ⟨t.takeWhile cBlank, t.dropWhile cBlank, (List.takeWhile_append_dropWhile).symm, ?_, (span_utf8 blank_pred t).2⟩
  rw [blanks_iff]
  intro c hc
  exact List.mem_takeWhile_imp hc

theorem skip_cons {c : UInt8} (h : isBlank c = false) (s : Bytes) : skipBlank (c :: s) = c :: s := by
  unfold skipBlank
  rw [List.dropWhile_cons, h]
  rfl

/-! ### numbers -/

theorem digits_bytes {ds : List Char} (h : Digits ds) : utf8 ds ≠ [] ∧ ∀ b ∈ utf8 ds, isDigit b = true := by
  have key : ∀ ds : List Char, (∀ c ∈ ds, '0' ≤ c ∧ c ≤ '9') → ∀ b ∈ utf8 ds, isDigit b = true := by
    intro ds
    induction ds with
    | nil => intro _ b hb; cases hb
    | cons c cs ih =>
      intro h b hb
      have hc : cDigit c = true := by simpa [cDigit] using h c (by simp)
      have hl : c.toNat < 128 := by rw [cDigit_iff] at hc; omega
      rw [utf8_ascii hl] at hb
      rcases List.mem_cons.1 hb with rfl | hb
      · rw [← digit_pred.low c hl]; exact hc
      · exact ih (fun x hx => h x (by simp [hx])) b hb
  refine ⟨?_, key ds h.2⟩
  obtain ⟨hne, _⟩ := h
  cases ds with
  | nil => exact absurd rfl hne
  | cons c cs =>
    rw [utf8_cons]
    intro e
    exact utf8EncodeChar_ne_nil c (List.append_eq_nil_iff.1 e).1

theorem span_append {p : UInt8 → Bool} {a s : Bytes} (ha : ∀ b ∈ a, p b = true) (hs : ∀ b ∈ s.head?, p b = false) :
    (a ++ s).takeWhile p = a ∧ (a ++ s).dropWhile p = s := by
  induction a with
  | nil =>
    cases s with
    | nil => exact ⟨rfl, rfl⟩
    | cons b s =>
      have := hs b (by simp)
      rw [List.nil_append, List.takeWhile_cons, List.dropWhile_cons, this]
      exact ⟨rfl, rfl⟩
  | cons b a ih =>
    have := ha b (by simp)
    rw [List.cons_append, List.takeWhile_cons, List.dropWhile_cons, this]
    simp only [if_true]
    obtain ⟨h1, h2⟩ := ih fun x hx => ha x (by simp [hx])
    exact ⟨by rw [h1], h2⟩

/-- A number ends here. -/
def Stops (s : Bytes) : Prop := ∀ b ∈ s.head?, isDigit b = false ∧ b ≠ 46 ∧ b ≠ 101 ∧ b ≠ 69

theorem readSign_other {s : Bytes} (h : s.head? ≠ some 45) : readSign s = ([], s) := by
  unfold readSign
  split
  · simp at h
  · rfl

theorem readExpSign_other {s : Bytes} (h : s.head? ≠ some 43) (h' : s.head? ≠ some 45) : readExpSign s = ([], s) := by
  unfold readExpSign
  split
  · simp at h
  · simp at h'
  · rfl

theorem readFrac_other {s : Bytes} (h : s.head? ≠ some 46) : readFrac s = some ([], s) := by
  unfold readFrac
  split
  · simp at h
  · rfl

theorem head_digits {ds : List Char} (h : Digits ds) (s : Bytes) : ∃ b, (utf8 ds ++ s).head? = some b ∧ isDigit b = true := by
  obtain ⟨h1, h2⟩ := digits_bytes h
  cases hu : utf8 ds with
  | nil => exact absurd hu h1
  | cons b bs =>
    rw [hu] at h2
    exact ⟨b, rfl, h2 b (by simp)⟩

theorem exp_of {exp : List Char}
    (h : exp = [] ∨ ∃ e s ds, exp = e :: (s ++ ds) ∧ (e = 'e' ∨ e = 'E') ∧ (s = [] ∨ s = ['+'] ∨ s = ['-']) ∧ Digits ds)
    {rest : Bytes} (hr : Stops rest) : readExp (utf8 exp ++ rest) = some (utf8 exp, rest) := by
  rcases h with rfl | ⟨e, s, ds, rfl, he, hs, hd⟩
  · cases rest with
    | nil => rfl
    | cons b r =>
      obtain ⟨_, _, h1, h2⟩ := hr b (by simp)
      show readExp (b :: r) = some ([], b :: r)
      rw [readExp, if_neg (by simp [h1, h2])]
  · obtain ⟨d1, d2⟩ := digits_bytes hd
    obtain ⟨b, b1, b2⟩ := head_digits hd rest
    have hb : b ≠ 43 ∧ b ≠ 45 := by constructor <;> (rintro rfl; revert b2; decide)
    obtain ⟨s1, s2⟩ := span_append d2 (fun x hx => (hr x hx).1)
    have key : ∀ e' : UInt8, (e' = 101 ∨ e' = 69) → readExp (e' :: (utf8 s ++ utf8 ds ++ rest)) = some (e' :: (utf8 s ++ utf8 ds), rest) := by
      intro e' he'
      have hsg : readExpSign (utf8 s ++ utf8 ds ++ rest) = (utf8 s, utf8 ds ++ rest) := by
        rcases hs with rfl | rfl | rfl
        · show readExpSign (utf8 ds ++ rest) = _
          rw [readExpSign_other (by rw [b1]; simpa using hb.1) (by rw [b1]; simpa using hb.2)]
          rfl
        · rw [show utf8 ['+'] = [43] by decide +kernel]; rfl
        · rw [show utf8 ['-'] = [45] by decide +kernel]; rfl
      rw [readExp, if_pos he', hsg]
      simp only
      rw [s1, s2, if_neg d1]
    rcases he with rfl | rfl
    · rw [utf8_ascii (by decide), utf8_append]
      exact key 101 (by simp)
    · rw [utf8_ascii (by decide), utf8_append]
      exact key 69 (by simp)

theorem exp_head {exp : List Char}
    (h : exp = [] ∨ ∃ e s ds, exp = e :: (s ++ ds) ∧ (e = 'e' ∨ e = 'E') ∧ (s = [] ∨ s = ['+'] ∨ s = ['-']) ∧ Digits ds)
    {rest : Bytes} (hr : Stops rest) : ∀ b ∈ (utf8 exp ++ rest).head?, isDigit b = false ∧ b ≠ 46 := by
  rcases h with rfl | ⟨e, s, ds, rfl, he, hs, hd⟩
  · intro b hb
    exact ⟨(hr b hb).1, (hr b hb).2.1⟩
  · rcases he with rfl | rfl <;>
    · intro b hb
      rw [utf8_ascii (by decide)] at hb
      simp only [List.cons_append, List.head?_cons, Option.mem_def, Option.some.injEq] at hb
      subst hb
      decide

/-- A number that is written is read. -/
theorem readNumber_of {t : List Char} (h : NumberText t) {rest : Bytes} (hr : Stops rest) :
    readNumber (utf8 t ++ rest) = some (utf8 t, rest) := by
  obtain ⟨sign, int, frac, exp, rfl, hs, hi, hf, he⟩ := h
  have h3 := exp_of he hr
  have hh := exp_head he hr
  have h2 : readFrac (utf8 frac ++ (utf8 exp ++ rest)) = some (utf8 frac, utf8 exp ++ rest) ∧
      ∀ b ∈ (utf8 frac ++ (utf8 exp ++ rest)).head?, isDigit b = false := by
    rcases hf with rfl | ⟨ds, rfl, hd⟩
    · refine ⟨?_, fun b hb => (hh b hb).1⟩
      apply readFrac_other
      intro e
      exact (hh 46 e).2 rfl
    · obtain ⟨d1, d2⟩ := digits_bytes hd
      obtain ⟨s1, s2⟩ := span_append d2 (fun x hx => (hh x hx).1)
      rw [utf8_ascii (by decide)]
      constructor
      · show readFrac (46 :: (utf8 ds ++ (utf8 exp ++ rest))) = _
        rw [readFrac, s1, s2, if_neg d1]
        rfl
      · intro b hb
        simp only [List.cons_append, List.head?_cons, Option.mem_def, Option.some.injEq] at hb
        subst hb
        decide
  have h1 : readInt (utf8 int ++ (utf8 frac ++ (utf8 exp ++ rest))) = some (utf8 int, utf8 frac ++ (utf8 exp ++ rest)) ∧
      ∃ b, (utf8 int ++ (utf8 frac ++ (utf8 exp ++ rest))).head? = some b ∧ isDigit b = true := by
    rcases hi with rfl | ⟨hd, h0⟩
    · rw [show utf8 ['0'] = [48] by decide +kernel]
      exact ⟨rfl, 48, rfl, by decide⟩
    · refine ⟨?_, head_digits hd _⟩
      cases int with
      | nil => exact absurd rfl hd.1
      | cons c cs =>
        have hc : cDigit c = true := by simpa [cDigit] using hd.2 c (by simp)
        have hl : c.toNat < 128 := by rw [cDigit_iff] at hc; omega
        obtain ⟨d1, d2⟩ := digits_bytes hd
        rw [utf8_ascii hl] at d2 ⊢
        obtain ⟨s1, s2⟩ := span_append (fun x hx => d2 x (List.mem_cons_of_mem _ hx)) h2.2
        rw [List.cons_append, readInt, if_pos (d2 _ (by simp)), if_neg, s1, s2]
        intro e
        apply h0
        have := congrArg UInt8.toNat e
        rw [ofNat_toNat (by omega)] at this
        rw [List.head?_cons, Option.some.injEq]
        exact (Char.ofNat_toNat c).symm.trans (by rw [this]; rfl)
  obtain ⟨b, b1, b2⟩ := h1.2
  have hb : b ≠ 45 := by rintro rfl; revert b2; decide
  have hsg : readSign (utf8 (sign ++ int ++ frac ++ exp) ++ rest) = (utf8 sign, utf8 int ++ (utf8 frac ++ (utf8 exp ++ rest))) := by
    rw [utf8_append, utf8_append, utf8_append]
    simp only [List.append_assoc]
    rcases hs with rfl | rfl
    · exact readSign_other (by rw [show utf8 [] = [] from rfl, List.nil_append, b1]; simpa using hb)
    · rw [show utf8 ['-'] = [45] by decide +kernel]; rfl
  rw [readNumber, hsg]
  simp only
  rw [h1.1]
  simp only
  rw [h2.1]
  simp only
  rw [h3]
  simp [utf8_append]

/-- The first byte of a number. -/
theorem number_head {t : List Char} (h : NumberText t) (rest : Bytes) :
    ∃ b bs, utf8 t ++ rest = b :: bs ∧ (b = 45 ∨ isDigit b = true) := by
  obtain ⟨sign, int, frac, exp, rfl, hs, hi, hf, he⟩ := h
  have hi' : Digits int := by
    rcases hi with rfl | h
    · exact ⟨by simp, by decide⟩
    · exact h.1
  rw [utf8_append, utf8_append, utf8_append]
  simp only [List.append_assoc]
  rcases hs with rfl | rfl
  · obtain ⟨b, b1, b2⟩ := head_digits hi' (utf8 frac ++ (utf8 exp ++ rest))
    rw [show utf8 [] = [] from rfl, List.nil_append]
    cases hx : utf8 int ++ (utf8 frac ++ (utf8 exp ++ rest)) with
    | nil => rw [hx] at b1; cases b1
    | cons x xs =>
      rw [hx] at b1
      cases b1
      exact ⟨_, _, rfl, .inr b2⟩
  · rw [show utf8 ['-'] = [45] by decide +kernel]
    exact ⟨45, _, rfl, .inl rfl⟩

theorem takeWhile_digits {t : List Char} (h : t.takeWhile cDigit ≠ []) : Digits (t.takeWhile cDigit) :=
  ⟨h, fun c hc => by
    have := List.mem_takeWhile_imp hc
    simpa [cDigit] using this⟩

theorem utf8_ne_nil {t : List Char} (h : utf8 t ≠ []) : t ≠ [] := by rintro rfl; exact h rfl

/-- What is read as a number was written as one. -/
theorem readNumber_some {text : List Char} {x r : Bytes} (h : readNumber (utf8 text) = some (x, r)) :
    ∃ t post, text = t ++ post ∧ NumberText t ∧ x = utf8 t ∧ r = utf8 post := by
  unfold readNumber at h
  have hs : ∃ sign t1, text = sign ++ t1 ∧ (sign = [] ∨ sign = ['-']) ∧ readSign (utf8 text) = (utf8 sign, utf8 t1) := by
    generalize hu : utf8 text = s
    unfold readSign
    split
    · obtain ⟨cs, rfl, rfl⟩ := ascii_head hu (by decide)
      exact ⟨['-'], cs, rfl, .inr rfl, by rw [show utf8 ['-'] = [45] by decide +kernel]⟩
    · exact ⟨[], text, rfl, .inl rfl, by rw [hu]; rfl⟩
  obtain ⟨sign, t1, rfl, hsign, es⟩ := hs
  rw [es] at h
  simp only at h
  split at h
  · cases h
  rename_i int s1 hint
  have hi : ∃ i t2, t1 = i ++ t2 ∧ (i = ['0'] ∨ (Digits i ∧ i.head? ≠ some '0')) ∧ int = utf8 i ∧ s1 = utf8 t2 := by
    generalize hu : utf8 t1 = s at hint
    unfold readInt at hint
    split at hint
    · cases hint
    rename_i d t
    split at hint
    · rename_i hd
      have hdl : d.toNat < 128 := by
        simp only [isDigit, Bool.and_eq_true, decide_eq_true_eq] at hd
        omega
      obtain ⟨cs, rfl, rfl⟩ := ascii_head hu hdl
      split at hint
      · rename_i h0
        subst h0
        simp only [Option.some.injEq, Prod.mk.injEq] at hint
        obtain ⟨rfl, rfl⟩ := hint
        exact ⟨['0'], cs, rfl, .inl rfl, by decide +kernel, rfl⟩
      · rename_i h0
        simp only [Option.some.injEq, Prod.mk.injEq] at hint
        obtain ⟨rfl, rfl⟩ := hint
        obtain ⟨e1, e2⟩ := span_utf8 digit_pred cs
        have hcd : cDigit (Char.ofNat d.toNat) = true := by
          rw [cDigit_iff, char_ofNat]
          simpa [isDigit] using hd
        refine ⟨Char.ofNat d.toNat :: cs.takeWhile cDigit, cs.dropWhile cDigit, ?_, .inr ⟨⟨by simp, ?_⟩, ?_⟩, ?_, e2⟩
        · rw [List.cons_append, List.takeWhile_append_dropWhile]
        · intro c hc
          rcases List.mem_cons.1 hc with rfl | hc
          · simpa [cDigit] using hcd
          · have := List.mem_takeWhile_imp hc
            simpa [cDigit] using this
        · rw [List.head?_cons, Ne, Option.some.injEq]
          intro e
          apply h0
          have := congrArg Char.toNat e
          rw [char_ofNat] at this
          exact UInt8.toNat_inj.1 this
        · rw [utf8_ascii (by rw [char_ofNat]; exact hdl), char_ofNat, e1]
          simp
    · cases hint
  obtain ⟨i, t2, rfl, hi, rfl, rfl⟩ := hi
  split at h
  · cases h
  rename_i frac s2 hfrac
  have hf : ∃ f t3, t2 = f ++ t3 ∧ (f = [] ∨ ∃ ds, f = '.' :: ds ∧ Digits ds) ∧ frac = utf8 f ∧ s2 = utf8 t3 := by
    generalize hu : utf8 t2 = s at hfrac
    unfold readFrac at hfrac
    split at hfrac
    · obtain ⟨cs, rfl, rfl⟩ := ascii_head hu (by decide)
      obtain ⟨e1, e2⟩ := span_utf8 digit_pred cs
      split at hfrac
      · cases hfrac
      rename_i hne
      simp only [Option.some.injEq, Prod.mk.injEq] at hfrac
      obtain ⟨rfl, rfl⟩ := hfrac
      refine ⟨'.' :: cs.takeWhile cDigit, cs.dropWhile cDigit, ?_, .inr ⟨_, rfl, takeWhile_digits (utf8_ne_nil (by rw [← e1]; exact hne))⟩, ?_, e2⟩
      · rw [List.cons_append, List.takeWhile_append_dropWhile]; rfl
      · rw [utf8_ascii (by decide), e1]; rfl
    · simp only [Option.some.injEq, Prod.mk.injEq] at hfrac
      obtain ⟨rfl, rfl⟩ := hfrac
      exact ⟨[], t2, rfl, .inl rfl, rfl, hu.symm⟩
  obtain ⟨f, t3, rfl, hf, rfl, rfl⟩ := hf
  split at h
  · cases h
  rename_i exp s3 hexp
  simp only [Option.some.injEq, Prod.mk.injEq] at h
  obtain ⟨rfl, rfl⟩ := h
  have he : ∃ e t4, t3 = e ++ t4 ∧
      (e = [] ∨ ∃ c s ds, e = c :: (s ++ ds) ∧ (c = 'e' ∨ c = 'E') ∧ (s = [] ∨ s = ['+'] ∨ s = ['-']) ∧ Digits ds) ∧
      exp = utf8 e ∧ s3 = utf8 t4 := by
    generalize hu : utf8 t3 = s at hexp
    unfold readExp at hexp
    split at hexp
    · simp only [Option.some.injEq, Prod.mk.injEq] at hexp
      obtain ⟨rfl, rfl⟩ := hexp
      exact ⟨[], t3, rfl, .inl rfl, rfl, hu.symm⟩
    rename_i c t
    split at hexp
    · rename_i hc
      have hcl : c.toNat < 128 := by rcases hc with rfl | rfl <;> decide
      obtain ⟨cs, rfl, rfl⟩ := ascii_head hu hcl
      have hsg : ∃ sg cs', cs = sg ++ cs' ∧ (sg = [] ∨ sg = ['+'] ∨ sg = ['-']) ∧ readExpSign (utf8 cs) = (utf8 sg, utf8 cs') := by
        generalize hu : utf8 cs = s
        unfold readExpSign
        split
        · obtain ⟨cs', rfl, rfl⟩ := ascii_head hu (by decide)
          exact ⟨['+'], cs', rfl, by simp, by rw [show utf8 ['+'] = [43] by decide +kernel]⟩
        · obtain ⟨cs', rfl, rfl⟩ := ascii_head hu (by decide)
          exact ⟨['-'], cs', rfl, by simp, by rw [show utf8 ['-'] = [45] by decide +kernel]⟩
        · exact ⟨[], cs, rfl, by simp, by rw [hu]; rfl⟩
      obtain ⟨sg, cs', rfl, hsg, eg⟩ := hsg
      rw [eg] at hexp
      simp only at hexp
      obtain ⟨e1, e2⟩ := span_utf8 digit_pred cs'
      split at hexp
      · cases hexp
      rename_i hne
      simp only [Option.some.injEq, Prod.mk.injEq] at hexp
      obtain ⟨rfl, rfl⟩ := hexp
      refine ⟨Char.ofNat c.toNat :: (sg ++ cs'.takeWhile cDigit), cs'.dropWhile cDigit, ?_,
        .inr ⟨_, sg, _, rfl, ?_, hsg, takeWhile_digits (utf8_ne_nil (by rw [← e1]; exact hne))⟩, ?_, e2⟩
      · rw [List.cons_append, List.append_assoc, List.takeWhile_append_dropWhile]
      · rcases hc with rfl | rfl
        · exact .inl rfl
        · exact .inr rfl
      · rw [utf8_ascii (by rw [char_ofNat]; exact hcl), char_ofNat, utf8_append, e1]
        simp
    · simp only [Option.some.injEq, Prod.mk.injEq] at hexp
      obtain ⟨rfl, rfl⟩ := hexp
      exact ⟨[], t3, rfl, .inl rfl, rfl, hu.symm⟩
  obtain ⟨e, t4, rfl, he, rfl, rfl⟩ := he
  refine ⟨sign ++ i ++ f ++ e, t4, by simp, ⟨sign, i, f, e, rfl, hsign, hi, hf, he⟩, by simp [utf8_append], rfl⟩

end Verif.Conf
