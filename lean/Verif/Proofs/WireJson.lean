import Verif.Proofs.Wire
namespace Verif.Wire
open Verif Verif.Spec

/-! ### UTF-8 decoding is inverse to encoding -/

theorem lead_cases {b len lo hi : Nat} (h : leadInfo b = some (len, lo, hi)) :
    (len = 2 ∧ 0xC2 ≤ b ∧ b < 0xE0 ∧ lo = 0x80 ∧ hi = 0xBF) ∨
    (len = 3 ∧ 0xE0 ≤ b ∧ b < 0xF0 ∧ 0x80 ≤ lo ∧ hi ≤ 0xBF ∧ (b = 0xE0 → 0xA0 ≤ lo) ∧ (b = 0xED → hi ≤ 0x9F)) ∨
    (len = 4 ∧ 0xF0 ≤ b ∧ b ≤ 0xF4 ∧ 0x80 ≤ lo ∧ hi ≤ 0xBF ∧ (b = 0xF0 → 0x90 ≤ lo) ∧ (b = 0xF4 → hi ≤ 0x8F)) := by
  unfold leadInfo at h
  split_ifs at h <;> simp only [Option.some.injEq, Prod.mk.injEq] at h <;> obtain ⟨rfl, rfl, rfl⟩ := h <;> omega

theorem range_nat {lo hi : Nat} {b : UInt8} (h : inByteRange lo hi b = true) : lo ≤ b.toNat ∧ b.toNat ≤ hi := by
  simpa [inByteRange] using h

theorem toNat_ofNat {v : Nat} (h : v.isValidChar) : (Char.ofNat v).toNat = v := by
  unfold Char.ofNat
  rw [dif_pos h]
  simp [Char.toNat, Char.ofNatAux]

theorem char_of {v : Nat} (h : v < 0xD800 ∨ (0xE000 ≤ v ∧ v < 0x110000)) : ∃ c : Char, c.toNat = v := by
  refine ⟨Char.ofNat v, toNat_ofNat ?_⟩
  rw [Nat.isValidChar]
  omega

theorem byte_eq {b : UInt8} {n : Nat} (h : n = b.toNat) : UInt8.ofNat n = b := by rw [h]; simp

/-- Invalid bytes, or the encoding of a character. -/
theorem decode_cases (b : UInt8) (t : Bytes) (hb : 0x80 ≤ b.toNat) :
    decodeRune (b :: t) = (runeError, 1) ∨ ∃ c : Char, 0x80 ≤ c.toNat ∧ ∃ u, b :: t = String.utf8EncodeChar c ++ u := by
  simp only [decodeRune]
  rw [if_neg (by omega)]
  cases hl : leadInfo b.toNat with
  | none => exact .inl rfl
  | some p =>
    obtain ⟨len, lo, hi⟩ := p
    simp only
    rcases lead_cases hl with ⟨rfl, h1, h2, rfl, rfl⟩ | ⟨rfl, h1, h2, h3, h4, h5, h6⟩ | ⟨rfl, h1, h2, h3, h4, h5, h6⟩
    · rcases t with _ | ⟨b1, t⟩
      · exact .inl rfl
      · simp only
        split
        · rename_i hr
          obtain ⟨r1, r2⟩ := range_nat hr
          right
          obtain ⟨c, hc⟩ := char_of (v := b.toNat % 0x20 * 64 + b1.toNat % 0x40) (by omega)
          refine ⟨c, by omega, t, ?_⟩
          rw [← encodeRune_char, hc]
          unfold encodeRune
          rw [if_neg (by omega), if_pos (by omega), byte_eq (b := b) (by omega), byte_eq (b := b1) (by omega)]
          rfl
        · exact .inl rfl
    · rcases t with _ | ⟨b1, _ | ⟨b2, t⟩⟩
      · exact .inl rfl
      · exact .inl rfl
      · simp only
        split
        · rename_i hr
          rw [Bool.and_eq_true] at hr
          obtain ⟨r1, r2⟩ := range_nat hr.1
          obtain ⟨r3, r4⟩ := range_nat hr.2
          right
          obtain ⟨c, hc⟩ := char_of (v := b.toNat % 0x10 * 4096 + b1.toNat % 0x40 * 64 + b2.toNat % 0x40) (by omega)
          refine ⟨c, by omega, t, ?_⟩
          rw [← encodeRune_char, hc]
          unfold encodeRune
          rw [if_neg (by omega), if_neg (by omega), if_neg (by omega), if_pos (by omega), byte_eq (b := b) (by omega),
            byte_eq (b := b1) (by omega), byte_eq (b := b2) (by omega)]
          rfl
        · exact .inl rfl
    · rcases t with _ | ⟨b1, _ | ⟨b2, _ | ⟨b3, t⟩⟩⟩
      · exact .inl rfl
      · exact .inl rfl
      · exact .inl rfl
      · simp only
        split
        · rename_i hr
          rw [Bool.and_eq_true, Bool.and_eq_true] at hr
          obtain ⟨r1, r2⟩ := range_nat hr.1.1
          obtain ⟨r3, r4⟩ := range_nat hr.1.2
          obtain ⟨r5, r6⟩ := range_nat hr.2
          right
          obtain ⟨c, hc⟩ := char_of
            (v := b.toNat % 0x08 * 262144 + b1.toNat % 0x40 * 4096 + b2.toNat % 0x40 * 64 + b3.toNat % 0x40) (by omega)
          refine ⟨c, by omega, t, ?_⟩
          rw [← encodeRune_char, hc]
          unfold encodeRune
          rw [if_neg (by omega), if_neg (by omega), if_neg (by omega), if_neg (by omega), byte_eq (b := b) (by omega),
            byte_eq (b := b1) (by omega), byte_eq (b := b2) (by omega), byte_eq (b := b3) (by omega)]
          rfl
        · exact .inl rfl

/-! ### strings -/

/-- The bytes stand for the character in a JSON string. -/
def Piece (b : Bytes) (c : Char) : Prop :=
  ∃ t, b = utf8 t ∧ ∀ rest, jsonStringBody (t ++ rest) = (jsonStringBody rest).map fun p => (c :: p.1, p.2)

theorem piece_plain {c : Char} (h1 : c ≠ '"') (h2 : c ≠ '\\') (h3 : 32 ≤ c.toNat) : Piece (String.utf8EncodeChar c) c := by
  refine ⟨[c], by simp [utf8], fun rest => ?_⟩
  rw [List.singleton_append, jsonStringBody.eq_def]
  simp only [h1, h2, if_false]
  rw [if_neg (by omega)]

theorem piece_escape {e c : Char} (h : escapeOf e = some c) (hu : e ≠ 'u') : Piece (utf8 ['\\', e]) c := by
  refine ⟨_, rfl, fun rest => ?_⟩
  simp only [List.cons_append, List.nil_append]
  rw [jsonStringBody.eq_def]
  simp [hu, h]

theorem piece_unicode {x1 x2 x3 x4 : Char} {a b c d : Nat} (h1 : hexOf x1 = some a) (h2 : hexOf x2 = some b) (h3 : hexOf x3 = some c)
    (h4 : hexOf x4 = some d) (hv : (4096 * a + 256 * b + 16 * c + d).isValidChar) :
    Piece (utf8 ['\\', 'u', x1, x2, x3, x4]) (Char.ofNat (4096 * a + 256 * b + 16 * c + d)) := by
  refine ⟨_, rfl, fun rest => ?_⟩
  simp only [List.cons_append, List.nil_append]
  rw [jsonStringBody.eq_def]
  simp [h1, h2, h3, h4, hv]

theorem encode_ascii {c : Char} (h : c.toNat < 128) : String.utf8EncodeChar c = [UInt8.ofNat c.toNat] := by
  rw [← encodeRune_char]
  unfold encodeRune
  rw [if_pos (by omega)]

theorem hexDigit_char : ∀ n < 16, hexOf (Char.ofNat (hexDigit n).toNat) = some n ∧
    String.utf8EncodeChar (Char.ofNat (hexDigit n).toNat) = [hexDigit n] := by decide +kernel

theorem char_byte {b : UInt8} : (Char.ofNat b.toNat).toNat = b.toNat := by
  apply toNat_ofNat
  rw [Nat.isValidChar]
  have := b.toNat_lt
  omega

theorem piece_byte {b : UInt8} (hb : b.toNat < 0x80) : Piece (jsonByte b) (Char.ofNat b.toNat) := by
  have hc := char_byte (b := b)
  have henc : String.utf8EncodeChar (Char.ofNat b.toNat) = [b] := by
    rw [encode_ascii (by omega), hc, UInt8.ofNat_toNat]
  have hne : ∀ n : Nat, n < 128 → b.toNat ≠ n → Char.ofNat b.toNat ≠ Char.ofNat n := by
    intro n hn hbn h
    have := congrArg Char.toNat h
    rw [hc, toNat_ofNat (by rw [Nat.isValidChar]; omega)] at this
    exact hbn this
  unfold jsonByte
  by_cases h1 : b.toNat = 34 ∨ b.toNat = 92
  · rw [if_pos h1]
    have : [92, b] = utf8 ['\\', Char.ofNat b.toNat] := by
      simp only [utf8, List.flatMap_cons, List.flatMap_nil, henc]
      rfl
    rw [this]
    apply piece_escape
    · rcases h1 with h | h <;> rw [h] <;> decide
    · rcases h1 with h | h <;> rw [h] <;> decide
  rw [if_neg h1]
  by_cases h2 : b.toNat = 10
  · rw [if_pos h2, h2]
    exact piece_escape (e := 'n') (by decide) (by decide)
  rw [if_neg h2]
  by_cases h3 : b.toNat = 13
  · rw [if_pos h3, h3]
    exact piece_escape (e := 'r') (by decide) (by decide)
  rw [if_neg h3]
  by_cases h4 : b.toNat = 9
  · rw [if_pos h4, h4]
    exact piece_escape (e := 't') (by decide) (by decide)
  rw [if_neg h4]
  by_cases h5 : b.toNat < 32 ∨ b.toNat = 60 ∨ b.toNat = 62 ∨ b.toNat = 38
  · rw [if_pos h5]
    obtain ⟨p1, p2⟩ := hexDigit_char (b.toNat / 16) (by omega)
    obtain ⟨p3, p4⟩ := hexDigit_char (b.toNat % 16) (by omega)
    have hz : hexOf '0' = some 0 := by decide
    have := piece_unicode hz hz p1 p3 (by rw [Nat.isValidChar]; omega)
    have e1 : 4096 * 0 + 256 * 0 + 16 * (b.toNat / 16) + b.toNat % 16 = b.toNat := by omega
    rw [e1] at this
    have e2 : [92, 117, 48, 48, hexDigit (b.toNat / 16), hexDigit (b.toNat % 16)] =
        utf8 ['\\', 'u', '0', '0', Char.ofNat (hexDigit (b.toNat / 16)).toNat, Char.ofNat (hexDigit (b.toNat % 16)).toNat] := by
      simp only [utf8, List.flatMap_cons, List.flatMap_nil, p2, p4]
      rfl
    rw [e2]
    exact this
  rw [if_neg h5, ← henc]
  exact piece_plain (hne 34 (by omega) (by omega)) (hne 92 (by omega) (by omega)) (by omega)

/-- What a client reads for a string: its characters; invalid bytes give U+FFFD. -/
def shown (s : Bytes) : List Char := (runesOf s).map Char.ofNat

theorem shown_utf8 (w : List Char) : shown (utf8 w) = w := by
  unfold shown
  rw [runesOf_utf8, List.map_map]
  have : Char.ofNat ∘ Char.toNat = id := by funext c; simp
  rw [this, List.map_id]

theorem piece_two : Piece [92, 117, 50, 48, 50, hexDigit (0x2028 % 16)] (Char.ofNat 0x2028) ∧
    Piece [92, 117, 50, 48, 50, hexDigit (0x2029 % 16)] (Char.ofNat 0x2029) ∧ Piece [92, 117, 102, 102, 102, 100] (Char.ofNat 0xFFFD) :=
  ⟨piece_unicode (x1 := '2') (x2 := '0') (x3 := '2') (x4 := '8') (a := 2) (b := 0) (c := 2) (d := 8) (by decide) (by decide)
      (by decide) (by decide) (by decide),
   piece_unicode (x1 := '2') (x2 := '0') (x3 := '2') (x4 := '9') (a := 2) (b := 0) (c := 2) (d := 9) (by decide) (by decide)
      (by decide) (by decide) (by decide),
   piece_unicode (x1 := 'f') (x2 := 'f') (x3 := 'f') (x4 := 'd') (a := 15) (b := 15) (c := 15) (d := 13) (by decide) (by decide)
      (by decide) (by decide) (by decide)⟩

theorem piece_head (b : UInt8) (t : Bytes) (hb : ¬ b.toNat < 0x80) :
    Piece (if (decodeRune (b :: t)).1 = runeError ∧ (decodeRune (b :: t)).2 = 1 then [92, 117, 102, 102, 102, 100]
       else if (decodeRune (b :: t)).1 = 0x2028 ∨ (decodeRune (b :: t)).1 = 0x2029 then
         [92, 117, 50, 48, 50, hexDigit ((decodeRune (b :: t)).1 % 16)]
       else (b :: t).take (decodeRune (b :: t)).2) (Char.ofNat (decodeRune (b :: t)).1) := by
  rcases decode_cases b t (by omega) with h | ⟨c, hc, u, hu⟩
  · rw [h]
    simp only [and_self, if_true]
    exact piece_two.2.2
  · have hd := decodeRune_encode c u
    rw [hu, hd]
    have hlen : (String.utf8EncodeChar c).length ≠ 1 := by
      intro hl
      rw [← encodeRune_char] at hl
      unfold encodeRune at hl
      rw [if_neg (by omega)] at hl
      split_ifs at hl <;> simp at hl
    simp only [hlen, and_false, if_false, List.take_left, Char.ofNat_toNat]
    split
    · rename_i h
      rcases h with h | h
      · have : c = Char.ofNat 0x2028 := by rw [← h]; simp
        rw [this]
        exact piece_two.1
      · have : c = Char.ofNat 0x2029 := by rw [← h]; simp
        rw [this]
        exact piece_two.2.1
    · refine piece_plain ?_ ?_ (by omega)
      · rintro rfl; revert hc; decide
      · rintro rfl; revert hc; decide

theorem shown_cons (b : UInt8) (t : Bytes) :
    shown (b :: t) = Char.ofNat (decodeRune (b :: t)).1 :: shown ((b :: t).drop (decodeRune (b :: t)).2) := by
  unfold shown
  rw [runesOf_eq, runesOf_eq, charsOf]
  rfl

theorem chars_read (s : Bytes) : ∃ t, jsonChars s = utf8 t ∧
    ∀ rest, jsonStringBody (t ++ rest) = (jsonStringBody rest).map fun p => (shown s ++ p.1, p.2) := by
  induction s using jsonChars.induct with
  | case1 =>
    refine ⟨[], by simp [jsonChars, utf8], fun rest => ?_⟩
    have : shown [] = [] := by simp [shown, runesOf, rangeText]
    rw [this]
    simp
  | case2 b t hb ih =>
    obtain ⟨x, hx1, hx2⟩ := ih
    obtain ⟨y, hy1, hy2⟩ := piece_byte hb
    have hd : decodeRune (b :: t) = (b.toNat, 1) := by simp [decodeRune, hb]
    refine ⟨y ++ x, ?_, fun rest => ?_⟩
    · rw [jsonChars, if_pos hb, utf8_append, hx1, hy1]
    · rw [List.append_assoc, hy2, hx2, shown_cons, hd]
      simp [Option.map_map, Function.comp_def]
  | case3 b t hb ih =>
    obtain ⟨x, hx1, hx2⟩ := ih
    obtain ⟨y, hy1, hy2⟩ := piece_head b t hb
    refine ⟨y ++ x, ?_, fun rest => ?_⟩
    · rw [jsonChars, if_neg hb, utf8_append, hx1, hy1]
    · rw [List.append_assoc, hy2, hx2, shown_cons]
      simp [Option.map_map, Function.comp_def]

/-- A string value is read back. -/
theorem string_read (s : Bytes) : ∃ t, jsonString s = utf8 ('"' :: t) ∧ ∀ rest, jsonStringBody (t ++ rest) = some (shown s, rest) := by
  obtain ⟨t, h1, h2⟩ := chars_read s
  refine ⟨t ++ ['"'], ?_, fun rest => ?_⟩
  · unfold jsonString
    rw [h1]
    have : ('"' :: (t ++ ['"'])) = ['"'] ++ (t ++ ['"']) := rfl
    rw [this, utf8_append, utf8_append]
    rfl
  · rw [List.append_assoc, h2, List.singleton_append, jsonStringBody.eq_def]
    simp

/-! ### values -/

/-- The bytes are a text that is read as the value, whatever follows (`k`: the depth needed). -/
def Reads (k : Nat) (b : Bytes) (v : Json) : Prop :=
  ∃ c t, b = utf8 (c :: t) ∧ c ≠ ']' ∧ k ≤ t.length ∧ ∀ n rest, readValue (k + n) (c :: t ++ rest) = some (v, rest)

theorem reads_string (s : Bytes) : Reads 1 (jsonString s) (.str (shown s)) := by
  obtain ⟨t, h1, h2⟩ := string_read s
  refine ⟨'"', t, h1, by decide, ?_, fun n rest => ?_⟩
  · cases t with
    | nil =>
      have := h2 []
      simp [jsonStringBody] at this
    | cons => simp
  · rw [Nat.add_comm, List.cons_append, readValue, h2]
    rfl

theorem readElements_join {k : Nat} (hk : 1 ≤ k) {bs : List Bytes} {vs : List Json} (h : List.Forall₂ (Reads k) bs vs) (hne : bs ≠ []) :
    ∃ c t, (bs.intersperse [44]).flatten ++ [93] = utf8 (c :: t) ∧ c ≠ ']' ∧ k + bs.length ≤ t.length + 1 ∧
      ∀ n rest, readElements (k + bs.length + n) (c :: t ++ rest) = some (vs, rest) := by
  induction h with
  | nil => exact absurd rfl hne
  | @cons b v bs vs hb hbs ih =>
    obtain ⟨c, t, h1, h2, h3, h4⟩ := hb
    cases hbs with
    | nil =>
      refine ⟨c, t ++ [']'], ?_, h2, ?_, fun n rest => ?_⟩
      · have : c :: (t ++ [']']) = (c :: t) ++ [']'] := rfl
        rw [this, utf8_append, ← h1]
        simp
        rfl
      · simp; omega
      · have e : k + [b].length + n = (k + n) + 1 := by simp; omega
        rw [e, readElements]
        have : c :: (t ++ [']']) ++ rest = c :: t ++ (']' :: rest) := by simp
        rw [this, h4]
        rfl
    | @cons b' v' bs vs hb' hbs =>
      obtain ⟨c', t', g1, g2, g3, g4⟩ := ih (by simp)
      refine ⟨c, t ++ ',' :: c' :: t', ?_, h2, ?_, fun n rest => ?_⟩
      · have : c :: (t ++ ',' :: c' :: t') = (c :: t) ++ ([','] ++ (c' :: t')) := by simp
        rw [this, utf8_append, utf8_append, ← h1, ← g1]
        simp [List.intersperse]
        rfl
      · simp only [List.length_append, List.length_cons] at g3 ⊢; omega
      · have e : k + (b :: b' :: bs).length + n = (k + (b' :: bs).length + n) + 1 := by simp; omega
        rw [e, readElements]
        have : c :: (t ++ ',' :: c' :: t') ++ rest = c :: t ++ (',' :: (c' :: t' ++ rest)) := by simp
        rw [this]
        have e2 : k + (b' :: bs).length + n = k + ((b' :: bs).length + n) := by omega
        rw [e2, h4]
        simp only
        rw [← e2, g4]
        rfl

/-- An array of such values. -/
theorem array_read {k : Nat} (hk : 1 ≤ k) {bs : List Bytes} {vs : List Json} (h : List.Forall₂ (Reads k) bs vs) :
    JsonBody (jsonArray bs) (.arr vs) := by
  by_cases hne : bs = []
  · subst hne
    cases h
    exact ⟨['[', ']'], by decide, by simp [jsonParse, readValue]⟩
  · obtain ⟨c, t, h1, h2, h3, h4⟩ := readElements_join hk h hne
    refine ⟨'[' :: c :: t, ?_, ?_⟩
    · have : '[' :: c :: t = ['['] ++ (c :: t) := rfl
      rw [this, utf8_append, ← h1]
      rfl
    · unfold jsonParse
      have hr : readValue (('[' :: c :: t).length + 1) ('[' :: c :: t) = some (.arr vs, []) := by
        have e : ('[' :: c :: t).length + 1 = (k + bs.length + (t.length + 2 - (k + bs.length))) + 1 := by
          simp only [List.length_cons]; omega
        have := h4 (t.length + 2 - (k + bs.length)) []
        rw [List.append_nil] at this
        rw [e, readValue, this]
        · rfl
        · intro rest hc
          simp only [List.cons.injEq] at hc
          exact h2 hc.1
      rw [hr]

/-- The text of a number: nonempty, digits, signs, '.', 'e', 'E'. -/
def NumText (t : List Char) : Prop := t ≠ [] ∧ ∀ c ∈ t, isNumChar c = true

theorem readValue_num {t : List Char} (h : NumText t) (n : Nat) {c : Char} (hc : isNumChar c = false) (rest : List Char) :
    readValue (n + 1) (t ++ c :: rest) = some (.num t, c :: rest) := by
  obtain ⟨x, u, rfl⟩ := List.exists_cons_of_ne_nil h.1
  have hx := h.2 x (by simp)
  rw [List.cons_append, readValue]
  · have h1 : List.takeWhile isNumChar (x :: (u ++ c :: rest)) = x :: u := by
      rw [← List.cons_append, List.takeWhile_append_of_pos h.2]
      simp [hc]
    have h2 : List.dropWhile isNumChar (x :: (u ++ c :: rest)) = c :: rest := by
      rw [← List.cons_append, List.dropWhile_append_of_pos h.2]
      simp [hc]
    rw [h1, h2]
    rfl
  all_goals
    rintro rest h
    rw [List.cons.injEq] at h
    rw [h.1] at hx
    revert hx
    decide

theorem body_literal (k : List Char) (hk : ∀ c ∈ k, c ≠ '"' ∧ c ≠ '\\' ∧ 32 ≤ c.toNat) (rest : List Char) :
    jsonStringBody (k ++ '"' :: rest) = some (k, rest) := by
  induction k with
  | nil => simp [jsonStringBody.eq_def]
  | cons c k ih =>
    obtain ⟨h1, h2, h3⟩ := hk c (by simp)
    rw [List.cons_append, jsonStringBody.eq_def]
    simp only [h1, h2, if_false]
    rw [if_neg (by omega), ih fun x hx => hk x (by simp [hx])]
    rfl

theorem reads_item {numText : ℚ → List Char} (hn : ∀ x, NumText (numText x)) (it : ℚ × Bytes) :
    Reads 4 (jsonItem (fun x => utf8 (numText x)) it)
      (.obj [("Score".toList, .num (numText it.1)), ("Value".toList, .str (shown it.2))]) := by
  obtain ⟨t, h1, h2⟩ := string_read it.2
  refine ⟨'{', "\"Score\":".toList ++ (numText it.1 ++ (",\"Value\":".toList ++ ('"' :: (t ++ ['}'])))), ?_, by decide, ?_, fun n rest => ?_⟩
  · unfold jsonItem
    rw [h1]
    have e : ('{' :: ("\"Score\":".toList ++ (numText it.1 ++ (",\"Value\":".toList ++ ('"' :: (t ++ ['}'])))))) =
        "{\"Score\":".toList ++ (numText it.1 ++ (",\"Value\":".toList ++ ('"' :: t ++ ['}']))) := by simp
    rw [e, utf8_append, utf8_append, utf8_append, utf8_append]
    have e1 : "{\"Score\":".toUTF8.toList = utf8 "{\"Score\":".toList := by decide +kernel
    have e2 : ",\"Value\":".toUTF8.toList = utf8 ",\"Value\":".toList := by decide +kernel
    rw [e1, e2]
    simp
    rfl
  · simp
  · have e : 4 + n = n + 3 + 1 := by omega
    have e' : ('{' :: ("\"Score\":".toList ++ (numText it.1 ++ (",\"Value\":".toList ++ ('"' :: (t ++ ['}'])))))) ++ rest =
        '{' :: '"' :: ("Score".toList ++ '"' :: ':' :: (numText it.1 ++ ',' :: '"' :: ("Value".toList ++ '"' :: ':' :: '"' :: (t ++ '}' :: rest)))) := by
      simp
    rw [e, e', readValue]
    · rw [readMembers, body_literal _ (by decide)]
      simp only
      rw [readValue_num (hn _) (n + 1) (by decide)]
      simp only
      rw [readMembers, body_literal _ (by decide)]
      simp only
      rw [readValue, h2]
      rfl
    · intro rest h
      simp at h

/-- The answer to a search. -/
theorem items_read {numText : ℚ → List Char} (hn : ∀ x, NumText (numText x)) (items : List (ℚ × Bytes)) :
    JsonBody (jsonItems (fun x => utf8 (numText x)) items) (itemsJson numText (items.map fun it => (it.1, shown it.2))) := by
  unfold jsonItems itemsJson
  apply array_read (k := 4) (by decide)
  rw [List.map_map, List.forall₂_map_left_iff, List.forall₂_map_right_iff]
  exact List.forall₂_same.2 fun it _ => reads_item hn it

end Verif.Wire
