import Verif.Model.Config
import Verif.Spec.Config
import Verif.Proofs.WireJson
import Verif.Proofs.Http
/- Reading JSON (Model/Config) is the grammar (Spec/Config). -/
namespace Verif.Conf
open Verif Spec Verif.Wire

/-! ### characters and bytes -/

theorem utf8_cons (c : Char) (cs : List Char) : utf8 (c :: cs) = String.utf8EncodeChar c ++ utf8 cs := by simp [utf8]

theorem utf8_ascii {c : Char} (h : c.toNat < 128) (cs : List Char) : utf8 (c :: cs) = UInt8.ofNat c.toNat :: utf8 cs := by
  rw [utf8_cons, encode_ascii h]; rfl

/-- The first byte of a character that is not ASCII. -/
theorem encode_high {c : Char} (h : 128 ≤ c.toNat) : ∃ b bs, String.utf8EncodeChar c = b :: bs ∧ 128 ≤ b.toNat := by
  have hd := decodeRune_encode c []
  cases he : String.utf8EncodeChar c with
  | nil => exact absurd he (utf8EncodeChar_ne_nil c)
  | cons b bs =>
    refine ⟨b, bs, rfl, ?_⟩
    by_contra hb
    rw [he] at hd
    simp only [List.cons_append, decodeRune] at hd
    rw [if_pos (by omega)] at hd
    have := congrArg Prod.fst hd
    simp only at this
    omega

theorem char_ofNat {b : UInt8} : (Char.ofNat b.toNat).toNat = b.toNat := char_byte

theorem char_eq {c : Char} {b : UInt8} (h : c.toNat = b.toNat) : c = Char.ofNat b.toNat := by
  rw [← h]; exact (Char.ofNat_toNat c).symm

/-- A byte below 0x80 at the beginning is a character. -/
theorem ascii_head {text : List Char} {b : UInt8} {bs : Bytes} (h : utf8 text = b :: bs) (hb : b.toNat < 128) :
    ∃ cs, text = Char.ofNat b.toNat :: cs ∧ bs = utf8 cs := by
  cases text with
  | nil => cases h
  | cons c cs =>
    by_cases hc : c.toNat < 128
    · rw [utf8_ascii hc] at h
      simp only [List.cons.injEq] at h
      obtain ⟨h1, h2⟩ := h
      refine ⟨cs, ?_, h2.symm⟩
      rw [List.cons.injEq]
      refine ⟨char_eq ?_, rfl⟩
      rw [← h1]
      simp
      omega
    · obtain ⟨b', bs', e, hb'⟩ := encode_high (c := c) (by omega)
      rw [utf8_cons, e] at h
      simp only [List.cons_append, List.cons.injEq] at h
      rw [h.1] at hb'
      omega

/-- The same before a quote. -/
theorem ascii_head_quote {text : List Char} {b : UInt8} {bs rest : Bytes} (h : utf8 text ++ 34 :: rest = b :: bs) (hb : b.toNat < 128)
    (hq : b ≠ 34) : ∃ cs, text = Char.ofNat b.toNat :: cs ∧ bs = utf8 cs ++ 34 :: rest := by
  cases hu : utf8 text with
  | nil =>
    rw [hu] at h
    simp only [List.nil_append, List.cons.injEq] at h
    exact absurd h.1.symm hq
  | cons b' bs' =>
    rw [hu] at h
    simp only [List.cons_append, List.cons.injEq] at h
    obtain ⟨rfl, rfl⟩ := h
    obtain ⟨cs, e1, e2⟩ := ascii_head hu hb
    exact ⟨cs, e1, by rw [e2]⟩

theorem hex_byte : ∀ c < 128, unhex (UInt8.ofNat c) = hexOf (Char.ofNat c) := by decide +kernel

theorem hexOf_ascii {c : Char} {a : Nat} (h : hexOf c = some a) : c.toNat < 128 := by
  unfold hexOf at h
  have e : ∀ d : Char, c ≤ d → c.toNat ≤ d.toNat := fun d hd => hd
  split at h
  · rename_i hc; have := e _ hc.2; simp at this; omega
  split at h
  · rename_i hc; have := e _ hc.2; simp at this; omega
  split at h
  · rename_i hc; have := e _ hc.2; simp at this; omega
  · cases h

theorem unhex_char {c : Char} {a : Nat} (h : hexOf c = some a) : unhex (UInt8.ofNat c.toNat) = some a := by
  have := hex_byte c.toNat (hexOf_ascii h)
  rw [Char.ofNat_toNat] at this
  rw [this, h]

theorem unhex_ascii {b : UInt8} {a : Nat} (h : unhex b = some a) : b.toNat < 128 ∧ b ≠ 34 ∧ hexOf (Char.ofNat b.toNat) = some a ∧ a < 16 := by
  have hb : b.toNat < 128 := by
    unfold unhex at h
    split at h; · omega
    split at h; · omega
    split at h; · omega
    · cases h
  have h2 : a < 16 := by
    unfold unhex at h
    split at h; · cases h; omega
    split at h; · cases h; omega
    split at h; · cases h; omega
    · cases h
  refine ⟨hb, ?_, ?_, h2⟩
  · rintro rfl; revert h; decide +revert
  · have := hex_byte b.toNat hb
    rw [← this]
    simpa using h

/-- Four digits. -/
theorem hex4_of {u : Nat} {x : List Char} (h : HexEscape u x) : ∃ y, x = '\\' :: 'u' :: y ∧ (∀ s, hex4 (utf8 y ++ s) = some (u, s)) ∧ u < 65536 := by
  obtain ⟨x1, x2, x3, x4, a, b, c, d, rfl, h1, h2, h3, h4, rfl⟩ := h
  refine ⟨[x1, x2, x3, x4], rfl, fun s => ?_, ?_⟩
  · rw [utf8_ascii (hexOf_ascii h1), utf8_ascii (hexOf_ascii h2), utf8_ascii (hexOf_ascii h3), utf8_ascii (hexOf_ascii h4)]
    simp only [List.cons_append, hex4, unhex_char h1, unhex_char h2, unhex_char h3, unhex_char h4]
    rfl
  · have := (unhex_ascii (unhex_char h1)).2.2.2
    have := (unhex_ascii (unhex_char h2)).2.2.2
    have := (unhex_ascii (unhex_char h3)).2.2.2
    have := (unhex_ascii (unhex_char h4)).2.2.2
    omega

theorem hex4_some {s s' : Bytes} {u : Nat} (h : hex4 s = some (u, s')) :
    ∃ a b c d w x y z, s = a :: b :: c :: d :: s' ∧ unhex a = some w ∧ unhex b = some x ∧ unhex c = some y ∧ unhex d = some z ∧
      u = 4096 * w + 256 * x + 16 * y + z := by
  unfold hex4 at h
  split at h
  · rename_i a b c d t
    split at h
    · rename_i w x y z h1 h2 h3 h4
      simp only [Option.some.injEq, Prod.mk.injEq] at h
      obtain ⟨rfl, rfl⟩ := h
      exact ⟨a, b, c, d, w, x, y, z, rfl, h1, h2, h3, h4, rfl⟩
    · cases h
  · cases h

theorem hex4_chars {t : List Char} {s' rest : Bytes} {u : Nat} (h : hex4 (utf8 t ++ 34 :: rest) = some (u, s')) :
    ∃ x t', t = x ++ t' ∧ HexEscape u ('\\' :: 'u' :: x) ∧ s' = utf8 t' ++ 34 :: rest := by
  obtain ⟨a, b, c, d, w, x, y, z, e, h1, h2, h3, h4, rfl⟩ := hex4_some h
  obtain ⟨p1, q1, r1, _⟩ := unhex_ascii h1
  obtain ⟨p2, q2, r2, _⟩ := unhex_ascii h2
  obtain ⟨p3, q3, r3, _⟩ := unhex_ascii h3
  obtain ⟨p4, q4, r4, _⟩ := unhex_ascii h4
  obtain ⟨t1, rfl, e1⟩ := ascii_head_quote e p1 q1
  obtain ⟨t2, rfl, e2⟩ := ascii_head_quote e1.symm p2 q2
  obtain ⟨t3, rfl, e3⟩ := ascii_head_quote e2.symm p3 q3
  obtain ⟨t4, rfl, e4⟩ := ascii_head_quote e3.symm p4 q4
  exact ⟨[_, _, _, _], t4, rfl, ⟨_, _, _, _, w, x, y, z, rfl, r1, r2, r3, r4, rfl⟩, e4⟩

theorem hex4_chars' {t : List Char} {s' : Bytes} {u : Nat} (h : hex4 (utf8 t) = some (u, s')) :
    ∃ x t', t = x ++ t' ∧ HexEscape u ('\\' :: 'u' :: x) ∧ s' = utf8 t' := by
  obtain ⟨a, b, c, d, w, x, y, z, e, h1, h2, h3, h4, rfl⟩ := hex4_some h
  obtain ⟨p1, q1, r1, _⟩ := unhex_ascii h1
  obtain ⟨p2, q2, r2, _⟩ := unhex_ascii h2
  obtain ⟨p3, q3, r3, _⟩ := unhex_ascii h3
  obtain ⟨p4, q4, r4, _⟩ := unhex_ascii h4
  obtain ⟨t1, rfl, e1⟩ := ascii_head e p1
  obtain ⟨t2, rfl, e2⟩ := ascii_head e1.symm p2
  obtain ⟨t3, rfl, e3⟩ := ascii_head e2.symm p3
  obtain ⟨t4, rfl, e4⟩ := ascii_head e3.symm p4
  exact ⟨[_, _, _, _], t4, rfl, ⟨_, _, _, _, w, x, y, z, rfl, r1, r2, r3, r4, rfl⟩, e4⟩

/-! ### strings -/

theorem escape_chars : ∀ e < 128, (escapeOf (Char.ofNat e)).map (fun c => UInt8.ofNat c.toNat) = escapeByte (UInt8.ofNat e) ∧
    ∀ c, escapeOf (Char.ofNat e) = some c → c.toNat < 128 := by
  have h1 : ∀ e < 128, (escapeOf (Char.ofNat e)).map (fun c => UInt8.ofNat c.toNat) = escapeByte (UInt8.ofNat e) := by decide +kernel
  have h2 : ∀ e < 128, ((escapeOf (Char.ofNat e)).map fun c => decide (c.toNat < 128)) ≠ some false := by decide +kernel
  intro e he
  refine ⟨h1 e he, fun c hc => ?_⟩
  have := h2 e he
  rw [hc] at this
  simpa using this

theorem escapeOf_ascii {e c : Char} (h : escapeOf e = some c) : e.toNat < 128 ∧ e ≠ 'u' := by
  unfold escapeOf at h
  split at h
  · rename_i hc; rcases hc with rfl | rfl | rfl <;> decide
  repeat (split at h; · rename_i hc; subst hc; decide)
  cases h

theorem escapeByte_ascii {e c : UInt8} (h : escapeByte e = some c) : e.toNat < 128 := by
  unfold escapeByte at h
  split at h
  · rename_i hc; rcases hc with rfl | rfl | rfl <;> decide
  repeat (split at h; · rename_i hc; subst hc; decide)
  cases h

theorem escape_some {e c : Char} (h : escapeOf e = some c) : escapeByte (UInt8.ofNat e.toNat) = some (UInt8.ofNat c.toNat) ∧ c.toNat < 128 := by
  have := escape_chars e.toNat (escapeOf_ascii h).1
  rw [Char.ofNat_toNat, h] at this
  exact ⟨this.1.symm, this.2 _ rfl⟩

theorem escape_back {e c : UInt8} (h : escapeByte e = some c) : ∃ d : Char, escapeOf (Char.ofNat e.toNat) = some d ∧ utf8 [d] = [c] := by
  have := escape_chars e.toNat (escapeByte_ascii h)
  rw [show UInt8.ofNat e.toNat = e by simp, h] at this
  obtain ⟨h1, h2⟩ := this
  cases hd : escapeOf (Char.ofNat e.toNat) with
  | none => rw [hd] at h1; cases h1
  | some d =>
    rw [hd] at h1
    refine ⟨d, rfl, ?_⟩
    rw [utf8_ascii (h2 d hd)]
    simp only [Option.map_some, Option.some.injEq] at h1
    rw [h1]
    rfl

theorem secondHalf_of {u v : Nat} {y : List Char} (h : HexEscape v y) (h1 : u < 0xDC00) (h2 : 0xDC00 ≤ v) (h3 : v < 0xE000) (s : Bytes) :
    secondHalf u (utf8 y ++ s) = some ((u - 0xD800) * 1024 + (v - 0xDC00) + 0x10000, s) := by
  obtain ⟨z, rfl, hz, _⟩ := hex4_of h
  rw [utf8_ascii (by decide), utf8_ascii (by decide)]
  show secondHalf u (92 :: 117 :: (utf8 z ++ s)) = _
  rw [secondHalf, hz]
  simp only
  rw [if_pos ⟨h1, h2, h3⟩]

theorem secondHalf_some {u r : Nat} {s s' : Bytes} (h : secondHalf u s = some (r, s')) :
    ∃ t v, s = 92 :: 117 :: t ∧ hex4 t = some (v, s') ∧ u < 0xDC00 ∧ 0xDC00 ≤ v ∧ v < 0xE000 ∧
      r = (u - 0xD800) * 1024 + (v - 0xDC00) + 0x10000 := by
  unfold secondHalf at h
  split at h
  · rename_i t
    split at h
    · rename_i v t' ht
      split at h
      · rename_i hc
        simp only [Option.some.injEq, Prod.mk.injEq] at h
        obtain ⟨rfl, rfl⟩ := h
        exact ⟨t, v, rfl, ht, hc.1, hc.2.1, hc.2.2, rfl⟩
      · cases h
    · cases h
  · cases h

theorem encode_fffd : encodeRune runeError = utf8 [Char.ofNat 0xFFFD] := by decide +kernel

theorem readString_quote (n : Nat) (t : Bytes) : readString (n + 1) (34 :: t) = some ([], t) := by
  rw [readString.eq_def]; rfl

theorem readString_back (n : Nat) (t : Bytes) : readString (n + 1) (92 :: t) =
    match t with
    | [] => none
    | e :: t' =>
      if e = 117 then
        match hex4 t' with
        | none => none
        | some (u, t'') =>
          if 0xD800 ≤ u ∧ u < 0xE000 then
            match secondHalf u t'' with
            | some (r, t3) => (readString n t3).map fun p => (encodeRune r ++ p.1, p.2)
            | none => (readString n t'').map fun p => (encodeRune runeError ++ p.1, p.2)
          else (readString n t'').map fun p => (encodeRune u ++ p.1, p.2)
      else
        match escapeByte e with
        | none => none
        | some c => (readString n t').map fun p => (c :: p.1, p.2) := by
  rw [readString.eq_def]; rfl

theorem readString_other (n : Nat) {b : UInt8} (t : Bytes) (h1 : b ≠ 34) (h2 : b ≠ 92) : readString (n + 1) (b :: t) =
    if b.toNat < 32 then none
    else (readString n ((b :: t).drop (decodeRune (b :: t)).2)).map fun p => (encodeRune (decodeRune (b :: t)).1 ++ p.1, p.2) := by
  rw [readString.eq_def]
  simp only
  rw [if_neg h1, if_neg h2]

theorem readString_plain {c : Char} (h1 : c ≠ '"') (h2 : c ≠ '\\') (h3 : 32 ≤ c.toNat) (n : Nat) (s : Bytes) :
    readString (n + 1) (String.utf8EncodeChar c ++ s) = (readString n s).map fun p => (String.utf8EncodeChar c ++ p.1, p.2) := by
  have hd := decodeRune_encode c s
  have key : ∃ b bs, String.utf8EncodeChar c = b :: bs ∧ b ≠ 34 ∧ b ≠ 92 ∧ 32 ≤ b.toNat := by
    by_cases hc : c.toNat < 128
    · refine ⟨_, _, encode_ascii hc, ?_, ?_, ?_⟩
      · intro e
        apply h1
        have := congrArg UInt8.toNat e
        simp at this
        rw [Nat.mod_eq_of_lt (by omega)] at this
        exact (Char.ofNat_toNat c).symm.trans (by rw [this])
      · intro e
        apply h2
        have := congrArg UInt8.toNat e
        simp at this
        rw [Nat.mod_eq_of_lt (by omega)] at this
        exact (Char.ofNat_toNat c).symm.trans (by rw [this])
      · simp; omega
    · obtain ⟨b, bs, e, hb⟩ := encode_high (c := c) (by omega)
      refine ⟨b, bs, e, ?_, ?_, by omega⟩ <;> (rintro rfl; revert hb; decide)
  obtain ⟨b, bs, e, g1, g2, g3⟩ := key
  rw [e] at hd ⊢
  rw [List.cons_append, readString_other n _ g1 g2, if_neg (by omega)]
  rw [List.cons_append] at hd
  rw [hd]
  have : (b :: (bs ++ s)).drop (b :: bs).length = s := by
    rw [← List.cons_append, List.drop_left]
  simp only [this]
  rw [encodeRune_char, e]

/-- A string that is written is read. -/
theorem readString_of {s t : List Char} (h : StringText s t) (rest : Bytes) :
    ∀ n, t.length < n → readString n (utf8 t ++ 34 :: rest) = some (utf8 s, rest) := by
  induction h with
  | nil =>
    intro n hn
    cases n with
    | zero => simp at hn
    | succ n => rfl
  | @plain c s t h1 h2 h3 _ ih =>
    intro n hn
    cases n with
    | zero => simp at hn
    | succ n =>
      rw [utf8_cons, List.append_assoc, readString_plain h1 h2 h3, ih n (by simpa using hn), utf8_cons]
      rfl
  | @short e c s t h1 _ ih =>
    intro n hn
    cases n with
    | zero => simp at hn
    | succ n =>
      obtain ⟨he, hu⟩ := escapeOf_ascii h1
      obtain ⟨g1, g2⟩ := escape_some h1
      rw [utf8_ascii (by decide), utf8_ascii he]
      show readString (n + 1) (92 :: UInt8.ofNat e.toNat :: (utf8 t ++ 34 :: rest)) = _
      rw [readString, if_neg (by decide), if_pos rfl]
      have : UInt8.ofNat e.toNat ≠ 117 := by
        intro e'
        apply hu
        have := congrArg UInt8.toNat e'
        simp at this
        rw [Nat.mod_eq_of_lt (by omega)] at this
        exact (Char.ofNat_toNat e).symm.trans (by rw [this])
      rw [if_neg this, g1]
      simp only
      rw [ih n (by simp at hn; omega), utf8_ascii g2]
      rfl
  | @hex c x s t hx _ ih =>
    intro n hn
    cases n with
    | zero => simp at hn
    | succ n =>
      obtain ⟨y, rfl, hy, hu⟩ := hex4_of hx
      rw [List.cons_append, List.cons_append, utf8_ascii (by decide), utf8_ascii (by decide), utf8_append]
      show readString (n + 1) (92 :: 117 :: (utf8 y ++ utf8 t ++ 34 :: rest)) = _
      rw [readString, if_neg (by decide), if_pos rfl]
      simp only
      rw [if_pos trivial, List.append_assoc, hy]
      simp only
      rw [if_neg (by have := char_range c; omega), ih n (by simp at hn; omega), encodeRune_char, utf8_cons]
      rfl
  | @pair c u v x y s t hx hy h1 h2 h3 h4 hc _ ih =>
    intro n hn
    cases n with
    | zero => simp at hn
    | succ n =>
      have hs := secondHalf_of (u := u) hy h2 h3 h4 (utf8 t ++ 34 :: rest)
      have hly : y.length = 6 := by obtain ⟨_, _, _, _, _, _, _, _, rfl, _⟩ := hy; rfl
      obtain ⟨x', rfl, hx', _⟩ := hex4_of hx
      rw [List.cons_append, List.cons_append, utf8_ascii (by decide), utf8_ascii (by decide), utf8_append, utf8_append]
      show readString (n + 1) (92 :: 117 :: (utf8 x' ++ (utf8 y ++ utf8 t) ++ 34 :: rest)) = _
      rw [readString, if_neg (by decide), if_pos rfl]
      simp only
      rw [if_pos trivial, List.append_assoc, hx']
      simp only
      rw [if_pos ⟨h1, by omega⟩, List.append_assoc, hs]
      simp only
      rw [ih n (by simp at hn; omega), show (u - 0xD800) * 1024 + (v - 0xDC00) + 0x10000 = c.toNat by omega, encodeRune_char, utf8_cons]
      rfl
  | @half u x s t hx h1 h2 hno _ ih =>
    intro n hn
    cases n with
    | zero => simp at hn
    | succ n =>
      obtain ⟨x', rfl, hx', _⟩ := hex4_of hx
      rw [List.cons_append, List.cons_append, utf8_ascii (by decide), utf8_ascii (by decide), utf8_append]
      show readString (n + 1) (92 :: 117 :: (utf8 x' ++ utf8 t ++ 34 :: rest)) = _
      rw [readString, if_neg (by decide), if_pos rfl]
      simp only
      rw [if_pos trivial, List.append_assoc, hx']
      simp only
      rw [if_pos ⟨h1, by omega⟩]
      have : secondHalf u (utf8 t ++ 34 :: rest) = none := by
        cases hs : secondHalf u (utf8 t ++ 34 :: rest) with
        | none => rfl
        | some p =>
          obtain ⟨r, s'⟩ := p
          obtain ⟨t', v, e, g1, g2, g3, g4, _⟩ := secondHalf_some hs
          obtain ⟨t1, rfl, e1⟩ := ascii_head_quote e (by decide) (by decide)
          obtain ⟨t2, rfl, e2⟩ := ascii_head_quote e1.symm (by decide) (by decide)
          rw [e2] at g1
          obtain ⟨y, t3, rfl, hy, _⟩ := hex4_chars g1
          exact absurd rfl (hno g2 v _ t3 hy g3 g4)
      rw [this]
      simp only
      rw [ih n (by simp at hn; omega), encode_fffd, ← List.singleton_append (l := s), utf8_append]
      rfl

/-- What is read as a string was written as one. -/
theorem readString_some : ∀ (n : Nat) (text : List Char) (s r : Bytes), readString n (utf8 text) = some (s, r) →
    ∃ js t post, text = t ++ '"' :: post ∧ StringText js t ∧ s = utf8 js ∧ r = utf8 post := by
  intro n
  induction n with
  | zero => intro text s r h; cases h
  | succ n ih =>
    intro text s r h
    cases text with
    | nil => cases h
    | cons c cs =>
      by_cases h1 : c = '"'
      · subst h1
        rw [utf8_ascii (by decide)] at h
        change readString (n + 1) (34 :: utf8 cs) = _ at h
        rw [readString_quote] at h
        simp only [Option.some.injEq, Prod.mk.injEq] at h
        obtain ⟨rfl, rfl⟩ := h
        exact ⟨[], [], cs, rfl, .nil, rfl, rfl⟩
      by_cases h2 : c = '\\'
      · subst h2
        rw [utf8_ascii (by decide)] at h
        change readString (n + 1) (92 :: utf8 cs) = _ at h
        rw [readString_back] at h
        split at h
        · cases h
        rename_i e t' he
        split at h
        · rename_i hu
          subst hu
          obtain ⟨t1, rfl, rfl⟩ := ascii_head he (by decide)
          split at h
          · cases h
          rename_i u t'' hx
          obtain ⟨x, t2, rfl, hx', rfl⟩ := hex4_chars' hx
          obtain ⟨_, _, _, hu⟩ := hex4_of hx'
          split at h
          · rename_i hsur
            split at h
            · rename_i r' t3 hs
              obtain ⟨t4, v, e, g1, g2, g3, g4, rfl⟩ := secondHalf_some hs
              obtain ⟨t5, rfl, e5⟩ := ascii_head e (by decide)
              obtain ⟨t6, rfl, e6⟩ := ascii_head e5.symm (by decide)
              rw [e6] at g1
              obtain ⟨y, t7, rfl, hy, rfl⟩ := hex4_chars' g1
              rw [Option.map_eq_some_iff] at h
              obtain ⟨⟨s1, r1⟩, h, hh⟩ := h
              simp only [Prod.mk.injEq] at hh
              obtain ⟨rfl, rfl⟩ := hh
              obtain ⟨js, t, post, rfl, g5, rfl, rfl⟩ := ih _ _ _ h
              obtain ⟨c, hc⟩ := char_of (v := (u - 0xD800) * 1024 + (v - 0xDC00) + 0x10000) (by omega)
              refine ⟨c :: js, _, post, ?_, .pair hx' hy hsur.1 g2 g3 g4 (by omega) g5, ?_, rfl⟩
              · simp only [List.cons_append, List.append_assoc]; rfl
              · rw [← hc, encodeRune_char, utf8_cons]
            · rename_i hs
              rw [Option.map_eq_some_iff] at h
              obtain ⟨⟨s1, r1⟩, h, hh⟩ := h
              simp only [Prod.mk.injEq] at hh
              obtain ⟨rfl, rfl⟩ := hh
              obtain ⟨js, t, post, rfl, g5, rfl, rfl⟩ := ih _ _ _ h
              refine ⟨Char.ofNat 0xFFFD :: js, _, post, ?_, .half hx' hsur.1 hsur.2 ?_ g5, ?_, rfl⟩
              · simp only [List.cons_append, List.append_assoc]; rfl
              · rintro hlt v y t' hy hv1 hv2 rfl
                have := secondHalf_of (u := u) hy hlt hv1 hv2 (utf8 (t' ++ '"' :: post))
                rw [← utf8_append, ← List.append_assoc, hs] at this
                cases this
              · rw [encode_fffd, ← utf8_append]; rfl
          · rename_i hsur
            rw [Option.map_eq_some_iff] at h
            obtain ⟨⟨s1, r1⟩, h, hh⟩ := h
            simp only [Prod.mk.injEq] at hh
            obtain ⟨rfl, rfl⟩ := hh
            obtain ⟨js, t, post, rfl, g5, rfl, rfl⟩ := ih _ _ _ h
            obtain ⟨c, rfl⟩ := char_of (v := u) (by omega)
            refine ⟨c :: js, _, post, ?_, .hex hx' g5, ?_, rfl⟩
            · simp only [List.cons_append, List.append_assoc]; rfl
            · rw [encodeRune_char, utf8_cons]
        · rename_i hu
          split at h
          · cases h
          rename_i d hd
          obtain ⟨t1, rfl, rfl⟩ := ascii_head he (escapeByte_ascii hd)
          obtain ⟨c, g1, g2⟩ := escape_back hd
          rw [Option.map_eq_some_iff] at h
          obtain ⟨⟨s1, r1⟩, h, hh⟩ := h
          simp only [Prod.mk.injEq] at hh
          obtain ⟨rfl, rfl⟩ := hh
          obtain ⟨js, t, post, rfl, g5, rfl, rfl⟩ := ih _ _ _ h
          refine ⟨c :: js, _, post, ?_, .short g1 g5, ?_, rfl⟩
          · rfl
          · rw [← List.singleton_append (l := js), utf8_append, g2]; rfl
      · by_cases h3 : 32 ≤ c.toNat
        · rw [utf8_cons, readString_plain h1 h2 h3, Option.map_eq_some_iff] at h
          obtain ⟨⟨s1, r1⟩, h, hh⟩ := h
          simp only [Prod.mk.injEq] at hh
          obtain ⟨rfl, rfl⟩ := hh
          obtain ⟨js, t, post, rfl, g5, rfl, rfl⟩ := ih _ _ _ h
          exact ⟨c :: js, c :: t, post, rfl, .plain h1 h2 h3 g5, (utf8_cons _ _).symm, rfl⟩
        · exfalso
          have e : (UInt8.ofNat c.toNat).toNat = c.toNat := by simp; omega
          rw [utf8_ascii (by omega), readString_other n _ (by intro e'; rw [e'] at e; change 34 = _ at e; omega)
            (by intro e'; rw [e'] at e; change 92 = _ at e; omega), if_pos (by omega)] at h
          cases h

end Verif.Conf
