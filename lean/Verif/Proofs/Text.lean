import Verif.Spec.Text
import Mathlib.Data.List.Basic
import Mathlib.Data.List.Induction
namespace Verif
open Spec (utf8)

theorem decodeRune_width_le (b : UInt8) (t : Bytes) : (decodeRune (b :: t)).2 ≤ (b :: t).length := by
  simp only [decodeRune]
  split
  · simp
  · split
    · simp
    · split <;> (try split) <;> simp

/-- The decoding of a string: every rune with the bytes it was decoded from. -/
def charsOf : Bytes → List (Nat × Bytes)
  | [] => []
  | b :: t =>
    ((decodeRune (b :: t)).1, (b :: t).take (decodeRune (b :: t)).2) :: charsOf ((b :: t).drop (decodeRune (b :: t)).2)
termination_by s => s.length
decreasing_by
  have := decodeRune_width_pos b t
  simp only [List.length_drop, List.length_cons]
  omega

/-- The bytes of decoded runes. -/
def joinChars (cs : List (Nat × Bytes)) : Bytes := cs.flatMap Prod.snd

/-- Start positions. -/
def offsets (off : Nat) : List (Nat × Bytes) → List (Nat × Nat)
  | [] => []
  | (r, b) :: t => (off, r) :: offsets (off + b.length) t

@[simp] theorem joinChars_nil : joinChars [] = [] := rfl
@[simp] theorem joinChars_cons (c cs) : joinChars (c :: cs) = c.2 ++ joinChars cs := by simp [joinChars]
@[simp] theorem joinChars_append (a b) : joinChars (a ++ b) = joinChars a ++ joinChars b := by simp [joinChars]

theorem joinChars_charsOf (s : Bytes) : joinChars (charsOf s) = s := by
  induction s using charsOf.induct with
  | case1 => simp [charsOf]
  | case2 b t ih => rw [charsOf, joinChars_cons, ih]; simp

theorem rangeText_eq (off : Nat) (s : Bytes) : rangeText off s = offsets off (charsOf s) := by
  induction s using charsOf.induct generalizing off with
  | case1 => simp [charsOf, rangeText, offsets]
  | case2 b t ih =>
    rw [rangeText, charsOf, offsets, ih]
    have := decodeRune_width_le b t
    simp only [List.length_take]
    rw [Nat.min_eq_left this]

theorem charsOf_ne_nil {s : Bytes} {c} (h : c ∈ charsOf s) : c.2 ≠ [] := by
  induction s using charsOf.induct with
  | case1 => simp [charsOf] at h
  | case2 b t ih =>
    rw [charsOf, List.mem_cons] at h
    rcases h with h | h
    · subst h
      have := decodeRune_width_pos b t
      intro hc
      simp only [List.take_eq_nil_iff] at hc
      rcases hc with h | h
      · omega
      · cases h
    · exact ih h

theorem runesOf_eq (s : Bytes) : runesOf s = (charsOf s).map Prod.fst := by
  rw [runesOf, rangeText_eq]
  generalize (0 : Nat) = off
  induction charsOf s generalizing off with
  | nil => rfl
  | cons c t ih => simp [offsets, ih]

theorem char_range (c : Char) : c.toNat < 0xD800 ∨ (0xE000 ≤ c.toNat ∧ c.toNat < 0x110000) := by
  have := c.valid
  rw [UInt32.isValidChar, Nat.isValidChar] at this
  show c.val.toNat < _ ∨ (_ ≤ c.val.toNat ∧ c.val.toNat < _)
  omega

theorem encodeRune_char (c : Char) : encodeRune c.toNat = String.utf8EncodeChar c := by
  have h := char_range c
  rw [String.utf8EncodeChar]
  show _ = (if c.toNat ≤ 0x7f then [UInt8.ofNat c.toNat] else
    if c.toNat ≤ 0x7ff then [UInt8.ofNat (c.toNat / 64 % 0x20 + 0xc0), UInt8.ofNat (c.toNat % 0x40 + 0x80)] else
    if c.toNat ≤ 0xffff then [UInt8.ofNat (c.toNat / 4096 % 0x10 + 0xe0), UInt8.ofNat (c.toNat / 64 % 0x40 + 0x80),
      UInt8.ofNat (c.toNat % 0x40 + 0x80)] else
    [UInt8.ofNat (c.toNat / 262144 % 0x08 + 0xf0), UInt8.ofNat (c.toNat / 4096 % 0x40 + 0x80),
      UInt8.ofNat (c.toNat / 64 % 0x40 + 0x80), UInt8.ofNat (c.toNat % 0x40 + 0x80)])
  generalize c.toNat = v at h
  unfold encodeRune
  by_cases h1 : v < 0x80
  · rw [if_pos h1, if_pos (by omega)]
  rw [if_neg h1, if_neg (by omega : ¬ v ≤ 0x7f)]
  by_cases h2 : v < 0x800
  · rw [if_pos h2, if_pos (by omega)]
    rw [show v / 64 % 0x20 + 0xc0 = 0xC0 + v / 64 by omega, show v % 0x40 + 0x80 = 0x80 + v % 64 by omega]
  rw [if_neg h2, if_neg (by omega : ¬ v ≤ 0x7ff), if_neg (by omega)]
  by_cases h3 : v < 0x10000
  · rw [if_pos h3, if_pos (by omega)]
    rw [show v / 4096 % 0x10 + 0xe0 = 0xE0 + v / 4096 by omega, show v / 64 % 0x40 + 0x80 = 0x80 + v / 64 % 64 by omega,
      show v % 0x40 + 0x80 = 0x80 + v % 64 by omega]
  rw [if_neg h3, if_neg (by omega : ¬ v ≤ 0xffff)]
  rw [show v / 262144 % 0x08 + 0xf0 = 0xF0 + v / 262144 by omega,
    show v / 4096 % 0x40 + 0x80 = 0x80 + v / 4096 % 64 by omega,
    show v / 64 % 0x40 + 0x80 = 0x80 + v / 64 % 64 by omega, show v % 0x40 + 0x80 = 0x80 + v % 64 by omega]

theorem inByteRange_ofNat {lo hi v : Nat} (h : v < 256) (h1 : lo ≤ v) (h2 : v ≤ hi) :
    inByteRange lo hi (UInt8.ofNat v) = true := by
  rw [inByteRange, UInt8.toNat_ofNat_of_lt' (by simpa [UInt8.size] using h)]
  simp [h1, h2]

theorem decodeRune_encode (c : Char) (t : Bytes) :
    decodeRune (String.utf8EncodeChar c ++ t) = (c.toNat, (String.utf8EncodeChar c).length) := by
  rw [← encodeRune_char]
  have h := char_range c
  generalize c.toNat = v at h
  have tn : ∀ x, x < 256 → (UInt8.ofNat x).toNat = x := fun x hx =>
    UInt8.toNat_ofNat_of_lt' (by simpa [UInt8.size] using hx)
  unfold encodeRune
  by_cases h1 : v < 0x80
  · rw [if_pos h1]
    simp only [List.cons_append, List.nil_append, decodeRune, List.length_cons, List.length_nil]
    rw [tn v (by omega), if_pos h1]
  rw [if_neg h1]
  by_cases h2 : v < 0x800
  · rw [if_pos h2]
    have e : leadInfo (0xC0 + v / 64) = some (2, 0x80, 0xBF) := by
      unfold leadInfo; rw [if_neg (by omega), if_pos (by omega)]
    simp only [List.cons_append, List.nil_append, decodeRune, List.length_cons, List.length_nil]
    rw [tn (0xC0 + v / 64) (by omega), if_neg (by omega), e]
    simp only
    rw [tn (0x80 + v % 64) (by omega), if_pos (inByteRange_ofNat (by omega) (by omega) (by omega))]
    ext1
    · show (0xC0 + v / 64) % 32 * 64 + (0x80 + v % 64) % 64 = v
      omega
    · rfl
  rw [if_neg h2, if_neg (by omega)]
  by_cases h3 : v < 0x10000
  · rw [if_pos h3]
    simp only [List.cons_append, List.nil_append, decodeRune, List.length_cons, List.length_nil]
    have e : ∃ lo hi, leadInfo (0xE0 + v / 4096) = some (3, lo, hi) ∧ lo ≤ 0x80 + v / 64 % 64 ∧ 0x80 + v / 64 % 64 ≤ hi := by
      unfold leadInfo
      rw [if_neg (by omega), if_neg (by omega)]
      by_cases c0 : v / 4096 = 0
      · refine ⟨0xA0, 0xBF, ?_, by omega, by omega⟩
        rw [if_pos (by omega)]
      rw [if_neg (by omega)]
      by_cases c1 : v / 4096 < 13
      · refine ⟨0x80, 0xBF, ?_, by omega, by omega⟩
        rw [if_pos (by omega)]
      rw [if_neg (by omega)]
      by_cases c2 : v / 4096 = 13
      · refine ⟨0x80, 0x9F, ?_, by omega, by omega⟩
        rw [if_pos (by omega)]
      rw [if_neg (by omega), if_pos (by omega)]
      exact ⟨0x80, 0xBF, rfl, by omega, by omega⟩
    obtain ⟨lo, hi, e, hlo, hhi⟩ := e
    rw [tn (0xE0 + v / 4096) (by omega), if_neg (by omega), e]
    simp only
    rw [tn (0x80 + v / 64 % 64) (by omega), tn (0x80 + v % 64) (by omega), inByteRange_ofNat (by omega) hlo hhi, inByteRange_ofNat (by omega) (by omega) (by omega)]
    simp only [Bool.and_true, if_true]
    ext1
    · show (0xE0 + v / 4096) % 16 * 4096 + (0x80 + v / 64 % 64) % 64 * 64 + (0x80 + v % 64) % 64 = v
      omega
    · rfl
  rw [if_neg h3]
  simp only [List.cons_append, List.nil_append, decodeRune, List.length_cons, List.length_nil]
  have e : ∃ lo hi, leadInfo (0xF0 + v / 262144) = some (4, lo, hi) ∧ lo ≤ 0x80 + v / 4096 % 64 ∧
      0x80 + v / 4096 % 64 ≤ hi := by
    unfold leadInfo
    rw [if_neg (by omega), if_neg (by omega), if_neg (by omega), if_neg (by omega), if_neg (by omega),
      if_neg (by omega)]
    by_cases c0 : v / 262144 = 0
    · refine ⟨0x90, 0xBF, ?_, by omega, by omega⟩
      rw [if_pos (by omega)]
    rw [if_neg (by omega)]
    by_cases c1 : v / 262144 < 4
    · refine ⟨0x80, 0xBF, ?_, by omega, by omega⟩
      rw [if_pos (by omega)]
    rw [if_neg (by omega), if_pos (by omega)]
    exact ⟨0x80, 0x8F, rfl, by omega, by omega⟩
  obtain ⟨lo, hi, e, hlo, hhi⟩ := e
  rw [tn (0xF0 + v / 262144) (by omega), if_neg (by omega), e]
  simp only
  rw [tn (0x80 + v / 4096 % 64) (by omega), tn (0x80 + v / 64 % 64) (by omega), tn (0x80 + v % 64) (by omega),
    inByteRange_ofNat (by omega) hlo hhi, inByteRange_ofNat (by omega) (by omega) (by omega),
    inByteRange_ofNat (by omega) (by omega) (by omega)]
  simp only [Bool.and_true, if_true]
  ext1
  · show (0xF0 + v / 262144) % 8 * 262144 + (0x80 + v / 4096 % 64) % 64 * 4096 + (0x80 + v / 64 % 64) % 64 * 64 +
      (0x80 + v % 64) % 64 = v
    omega
  · rfl

theorem utf8EncodeChar_ne_nil (c : Char) : String.utf8EncodeChar c ≠ [] := by
  intro h
  have := String.length_utf8EncodeChar c
  rw [h] at this
  have := c.utf8Size_pos
  simp_all

theorem charsOf_encode_append (c : Char) (t : Bytes) :
    charsOf (String.utf8EncodeChar c ++ t) = (c.toNat, String.utf8EncodeChar c) :: charsOf t := by
  have hd := decodeRune_encode c t
  cases h : String.utf8EncodeChar c ++ t with
  | nil => simp [utf8EncodeChar_ne_nil] at h
  | cons b u =>
    rw [h] at hd
    rw [charsOf, hd]
    simp only
    rw [← h, List.take_left, List.drop_left]

/-- A decoded character. -/
def charPair (c : Char) : Nat × Bytes := (c.toNat, String.utf8EncodeChar c)

theorem charsOf_utf8_append (cs : List Char) (t : Bytes) :
    charsOf (utf8 cs ++ t) = cs.map charPair ++ charsOf t := by
  induction cs with
  | nil => rfl
  | cons c cs ih =>
    show charsOf (List.flatMap _ _ ++ t) = _
    rw [List.flatMap_cons, List.append_assoc, charsOf_encode_append]
    show _ :: charsOf (utf8 cs ++ t) = _
    rw [ih]; rfl

theorem charsOf_utf8 (cs : List Char) : charsOf (utf8 cs) = cs.map charPair := by
  have := charsOf_utf8_append cs []
  simpa [charsOf] using this

theorem joinChars_charPair (cs : List Char) : joinChars (cs.map charPair) = utf8 cs := by
  simp [joinChars, utf8, charPair, List.flatMap_map]

theorem runesOf_utf8 (cs : List Char) : runesOf (utf8 cs) = cs.map Char.toNat := by
  rw [runesOf_eq, charsOf_utf8]; simp [charPair]

theorem utf8_append (a b : List Char) : utf8 (a ++ b) = utf8 a ++ utf8 b := by simp [utf8]

theorem utf8_injective {a b : List Char} (h : utf8 a = utf8 b) : a = b := by
  have h2 := congrArg runesOf h
  rw [runesOf_utf8, runesOf_utf8] at h2
  exact List.map_injective_iff.2 (fun x y hxy => Char.toNat_inj.1 hxy) h2

theorem toLowerText_utf8 (lc : Char → Char) (lower : Nat → Nat) (hl : ∀ c : Char, lower c.toNat = (lc c).toNat)
    (cs : List Char) : toLowerText lower (utf8 cs) = utf8 (cs.map lc) := by
  rw [toLowerText, runesOf_utf8, utf8, List.flatMap_map, List.flatMap_map]
  congr 1; funext c
  rw [hl, encodeRune_char]

theorem runeLen_char (c : Char) : runeLen c.toNat = (String.utf8EncodeChar c).length := by
  have h := char_range c
  rw [← encodeRune_char, runeLen, encodeRune]
  by_cases h1 : c.toNat < 0x80
  · rw [if_pos h1, if_pos h1]; rfl
  by_cases h2 : c.toNat < 0x800
  · rw [if_neg h1, if_neg h1, if_pos h2, if_pos h2]; rfl
  rw [if_neg h1, if_neg h1, if_neg h2, if_neg h2, if_neg (c := (_ ∧ _) ∨ _) (by omega)]
  split <;> rfl

/-- In a decoded string the first byte of a character that is not a space is not a space byte. -/
theorem encode_space (c : Char) : (String.utf8EncodeChar c).head? = some spaceByte ↔ c = ' ' := by
  constructor
  · intro h
    have hd := decodeRune_encode c []
    rw [List.append_nil] at hd
    cases hc : String.utf8EncodeChar c with
    | nil => simp [hc] at h
    | cons b u =>
      rw [hc] at h hd
      simp at h
      subst h
      have : decodeRune (spaceByte :: u) = (32, 1) := by
        rw [decodeRune, if_pos (by decide)]; rfl
      rw [this] at hd
      have := congrArg Prod.fst hd
      simp only at this
      exact Char.toNat_inj.1 this.symm
  · rintro rfl; decide

theorem encode_space_last (c : Char) : (String.utf8EncodeChar c).getLast? = some spaceByte ↔ c = ' ' := by
  constructor
  · intro h
    have h1 := char_range c
    rw [← encodeRune_char] at h
    have hv : c.toNat = 32 → c = ' ' := fun h => Char.toNat_inj.1 h
    apply hv
    clear hv
    generalize c.toNat = v at h h1
    have tn : ∀ x, x < 256 → (UInt8.ofNat x).toNat = x := fun x hx =>
      UInt8.toNat_ofNat_of_lt' (by simpa [UInt8.size] using hx)
    unfold encodeRune at h
    split at h
    · simp at h
      have := congrArg UInt8.toNat h
      rw [tn _ (by omega)] at this
      exact this
    all_goals exfalso
    split at h
    · simp only [List.getLast?_cons_cons, List.getLast?_singleton, Option.some.injEq] at h
      have := congrArg UInt8.toNat h
      rw [tn _ (by omega)] at this
      change _ = 32 at this
      omega
    rw [if_neg (by omega)] at h
    split at h
    all_goals
      simp only [List.getLast?_cons_cons, List.getLast?_singleton, Option.some.injEq] at h
      have := congrArg UInt8.toNat h
      rw [tn _ (by omega)] at this
      change _ = 32 at this
      omega
  · rintro rfl; decide

theorem dropWhile_utf8 (cs : List Char) :
    (utf8 cs).dropWhile (· == spaceByte) = utf8 (cs.dropWhile (· == ' ')) := by
  induction cs with
  | nil => rfl
  | cons c cs ih =>
    by_cases h : c = ' '
    · subst h
      have : utf8 (' ' :: cs) = spaceByte :: utf8 cs := rfl
      rw [this, List.dropWhile_cons_of_pos (by simp), ih, List.dropWhile_cons_of_pos (by simp)]
    · rw [List.dropWhile_cons_of_neg (by simpa using h)]
      have hh := encode_space c
      have e : utf8 (c :: cs) = String.utf8EncodeChar c ++ utf8 cs := rfl
      rw [e]
      cases hc : String.utf8EncodeChar c with
      | nil => exact absurd hc (utf8EncodeChar_ne_nil c)
      | cons b u =>
        rw [hc] at hh
        rw [List.cons_append, List.dropWhile_cons_of_neg]
        simp only [List.head?_cons, Option.some.injEq] at hh
        simp only [beq_iff_eq]
        exact fun hb => h (hh.1 hb)

theorem dropWhile_reverse_utf8 (cs : List Char) :
    ((utf8 cs).reverse.dropWhile (· == spaceByte)).reverse = utf8 (cs.reverse.dropWhile (· == ' ')).reverse := by
  induction cs using List.reverseRecOn with
  | nil => rfl
  | append_singleton cs c ih =>
    rw [utf8_append, List.reverse_append, List.reverse_append]
    have e1 : utf8 [c] = String.utf8EncodeChar c := by simp [utf8]
    rw [e1, List.reverse_singleton, List.singleton_append]
    by_cases h : c = ' '
    · subst h
      have : (String.utf8EncodeChar ' ').reverse = [spaceByte] := rfl
      rw [this, List.singleton_append, List.dropWhile_cons_of_pos (by simp), ih, List.dropWhile_cons_of_pos (by simp)]
    · rw [List.dropWhile_cons_of_neg (by simpa using h)]
      have hh := encode_space_last c
      cases hc : (String.utf8EncodeChar c).reverse with
      | nil => exact absurd (List.reverse_eq_nil_iff.1 hc) (utf8EncodeChar_ne_nil c)
      | cons b u =>
        rw [← List.head?_reverse, hc] at hh
        rw [List.cons_append, List.dropWhile_cons_of_neg]
        · rw [← List.cons_append, ← hc, ← List.reverse_append, List.reverse_reverse, ← e1, ← utf8_append]
          simp
        · simp only [List.head?_cons, Option.some.injEq] at hh
          simp only [beq_iff_eq]
          exact fun hb => h (hh.1 hb)

theorem trimSpaces_utf8 (cs : List Char) : trimSpaces (utf8 cs) = utf8 (Spec.trim ' ' cs) := by
  rw [trimSpaces, dropWhile_utf8, dropWhile_reverse_utf8]; rfl

end Verif
