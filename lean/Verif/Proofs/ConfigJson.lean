import Verif.Proofs.ConfigNumber
/- Values. -/
namespace Verif.Conf
open Verif Spec Verif.Wire

mutual
/-- The value of the model for a value of the specification. -/
def val : JVal → Value
  | .null => .null
  | .bool b => .bool b
  | .num t => .num (utf8 t)
  | .str s => .str (utf8 s)
  | .arr l => .arr (vals l)
  | .obj l => .obj (membs l)
def vals : List JVal → List Value
  | [] => []
  | v :: l => val v :: vals l
def membs : List (List Char × JVal) → List (Bytes × Value)
  | [] => []
  | (k, v) :: l => (utf8 k, val v) :: membs l
end

theorem utf8_length (t : List Char) : t.length ≤ (utf8 t).length := by
  induction t with
  | nil => simp
  | cons c cs ih =>
    rw [utf8_cons]
    have := List.length_pos_iff.2 (utf8EncodeChar_ne_nil c)
    simp only [List.length_cons, List.length_append]
    omega

theorem value_head {v : JVal} {t : List Char} (h : JsonWritten (.value v) t) (s : Bytes) :
    ∃ b bs, utf8 t ++ s = b :: bs ∧ isBlank b = false ∧ b ≠ 93 := by
  generalize hi : JItem.value v = it at h
  cases h with
  | null => exact ⟨110, _, rfl, by decide, by decide⟩
  | yes => exact ⟨116, _, rfl, by decide, by decide⟩
  | no => exact ⟨102, _, rfl, by decide, by decide⟩
  | num hn =>
    obtain ⟨b, bs, e, hb⟩ := number_head hn s
    refine ⟨b, bs, e, ?_, ?_⟩
    · rcases hb with rfl | hb
      · decide
      · rw [Bool.eq_false_iff]
        intro h
        simp only [isBlank, Bool.or_eq_true, beq_iff_eq] at h
        rcases h with ((rfl | rfl) | rfl) | rfl <;> revert hb <;> decide
    · rintro rfl
      rcases hb with hb | hb <;> revert hb <;> decide
  | str => exact ⟨34, _, by rw [utf8_ascii (by decide)]; rfl, by decide, by decide⟩
  | noElements => exact ⟨91, _, by rw [utf8_ascii (by decide)]; rfl, by decide, by decide⟩
  | arr => exact ⟨91, _, by rw [utf8_ascii (by decide)]; rfl, by decide, by decide⟩
  | noMembers => exact ⟨123, _, by rw [utf8_ascii (by decide)]; rfl, by decide, by decide⟩
  | obj => exact ⟨123, _, by rw [utf8_ascii (by decide)]; rfl, by decide, by decide⟩
  | element => cases hi
  | elements => cases hi
  | member => cases hi
  | members => cases hi

theorem value_skip {v : JVal} {t : List Char} (h : JsonWritten (.value v) t) (s : Bytes) : skipBlank (utf8 t ++ s) = utf8 t ++ s := by
  obtain ⟨b, bs, e, hb, _⟩ := value_head h s
  rw [e, skip_cons hb]

theorem value_pos {v : JVal} {t : List Char} (h : JsonWritten (.value v) t) : 1 ≤ t.length := by
  obtain ⟨b, bs, e, _⟩ := value_head h []
  cases t with
  | nil => cases e
  | cons => simp

theorem stops_blank {b : List Char} (hb : Blanks b) {c : UInt8} (hc : c = 93 ∨ c = 44 ∨ c = 125) (r : Bytes) : Stops (utf8 b ++ c :: r) := by
  cases b with
  | nil =>
    intro x hx
    simp only [utf8, List.flatMap_nil, List.nil_append, List.head?_cons, Option.mem_def, Option.some.injEq] at hx
    subst hx
    rcases hc with rfl | rfl | rfl <;> decide
  | cons d ds =>
    have hd := hb d (by simp)
    have hl : d.toNat < 128 := by rcases hd with rfl | rfl | rfl | rfl <;> decide
    intro x hx
    rw [utf8_ascii hl] at hx
    simp only [List.cons_append, List.head?_cons, Option.mem_def, Option.some.injEq] at hx
    subst hx
    rcases hd with rfl | rfl | rfl | rfl <;> decide

theorem stops_end {b : List Char} (hb : Blanks b) : Stops (utf8 b) := by
  cases b with
  | nil =>
    intro x hx
    cases hx
  | cons d ds =>
    have hd := hb d (by simp)
    have hl : d.toNat < 128 := by rcases hd with rfl | rfl | rfl | rfl <;> decide
    intro x hx
    rw [utf8_ascii hl] at hx
    simp only [List.head?_cons, Option.mem_def, Option.some.injEq] at hx
    subst hx
    rcases hd with rfl | rfl | rfl | rfl <;> decide

theorem readValue_blank {b : List Char} (hb : Blanks b) (n : Nat) (s : Bytes) : readValue n (utf8 b ++ s) = readValue n s := by
  cases n with
  | zero => simp only [readValue]
  | succ n => simp only [readValue, skip_append hb]

theorem readMembers_blank {b : List Char} (hb : Blanks b) (n : Nat) (s : Bytes) : readMembers n (utf8 b ++ s) = readMembers n s := by
  cases n with
  | zero => simp only [readMembers]
  | succ n => simp only [readMembers, skip_append hb]

theorem elements_skip {l : List JVal} {t : List Char} (h : JsonWritten (.elements l) t) (s : Bytes) :
    ∃ d t', skipBlank (utf8 t ++ s) = d :: t' ∧ d ≠ 93 := by
  generalize hi : JItem.elements l = it at h
  have key : ∀ {v b t}, Blanks b → JsonWritten (.value v) t → ∀ s, ∃ d t', skipBlank (utf8 (b ++ t) ++ s) = d :: t' ∧ d ≠ 93 := by
    intro v b t hb ht s
    rw [utf8_append, List.append_assoc, skip_append hb, value_skip ht]
    obtain ⟨d, t', e, _, h2⟩ := value_head ht s
    exact ⟨d, t', e, h2⟩
  cases h with
  | @element v b t b' hb ht _ =>
    have := key hb ht (utf8 b' ++ s)
    simpa only [utf8_append, List.append_assoc] using this
  | @elements v l b t b' u hb ht _ _ =>
    have := key hb ht (utf8 (b' ++ ',' :: u) ++ s)
    simpa only [utf8_append, List.append_assoc] using this
  | _ => cases hi

theorem members_skip {l : List (List Char × JVal)} {t : List Char} (h : JsonWritten (.members l) t) (s : Bytes) :
    ∃ t', skipBlank (utf8 t ++ s) = 34 :: t' := by
  generalize hi : JItem.members l = it at h
  cases h with
  | member hb =>
    rw [utf8_append, List.append_assoc, skip_append hb, utf8_ascii (by decide)]
    exact ⟨_, skip_cons (by decide) _⟩
  | members hb =>
    rw [utf8_append, List.append_assoc, skip_append hb, utf8_ascii (by decide)]
    exact ⟨_, skip_cons (by decide) _⟩
  | _ => cases hi

/-- The number of bytes needed for a text to be read. -/
def ReadsItem : JItem → List Char → Prop
  | .value v, t => ∀ rest n, Stops rest → t.length ≤ n → readValue n (utf8 t ++ rest) = some (val v, rest)
  | .elements l, t => ∀ rest n, t.length + 1 ≤ n → readElements n (utf8 t ++ 93 :: rest) = some (vals l, rest)
  | .members l, t => ∀ rest n, t.length + 1 ≤ n → readMembers n (utf8 t ++ 125 :: rest) = some (membs l, rest)

/-- The first member of what is left, when it is written. -/
theorem readMembers_first {k kt : List Char} {v : JVal} {t : List Char} {b b1 b2 b' : List Char} (hb : Blanks b) (hk : StringText k kt)
    (hb1 : Blanks b1) (hb2 : Blanks b2) (hb' : Blanks b') {c : UInt8} (hc : c = 125 ∨ c = 44) {rest : Bytes} {n : Nat}
    (hv : readValue n (utf8 t ++ (utf8 b' ++ c :: rest)) = some (val v, utf8 b' ++ c :: rest)) :
    readMembers (n + 1) (utf8 (b ++ '"' :: (kt ++ '"' :: (b1 ++ ':' :: (b2 ++ (t ++ b'))))) ++ c :: rest) =
      if c = 125 then some ([(utf8 k, val v)], rest) else (readMembers n rest).map fun p => ((utf8 k, val v) :: p.1, p.2) := by
  have e : utf8 (b ++ '"' :: (kt ++ '"' :: (b1 ++ ':' :: (b2 ++ (t ++ b'))))) ++ c :: rest =
      utf8 b ++ 34 :: (utf8 kt ++ 34 :: (utf8 b1 ++ 58 :: (utf8 b2 ++ (utf8 t ++ (utf8 b' ++ c :: rest))))) := by
    rw [utf8_append, utf8_ascii (by decide), utf8_append, utf8_ascii (by decide), utf8_append, utf8_ascii (by decide), utf8_append, utf8_append]
    simp
  rw [e, readMembers_blank hb, readMembers, skip_cons (by decide)]
  simp only
  rw [if_pos trivial, readString_of hk _ _ (by have := utf8_length kt; simp; omega)]
  simp only
  rw [skip_append hb1, skip_cons (by decide)]
  simp only
  rw [if_pos trivial, readValue_blank hb2, hv]
  simp only
  rw [skip_append hb', skip_cons (by rcases hc with rfl | rfl <;> decide)]
  simp only
  rcases hc with rfl | rfl
  · rfl
  · rfl

theorem readElements_first {v : JVal} {t b b' : List Char} (hb : Blanks b) (hb' : Blanks b') {c : UInt8} (hc : c = 93 ∨ c = 44)
    {rest : Bytes} {n : Nat} (hv : readValue n (utf8 t ++ (utf8 b' ++ c :: rest)) = some (val v, utf8 b' ++ c :: rest)) :
    readElements (n + 1) (utf8 (b ++ (t ++ b')) ++ c :: rest) =
      if c = 93 then some ([val v], rest) else (readElements n rest).map fun p => (val v :: p.1, p.2) := by
  rw [utf8_append, utf8_append, List.append_assoc, List.append_assoc, readElements, readValue_blank hb, hv]
  simp only
  rw [skip_append hb', skip_cons (by rcases hc with rfl | rfl <;> decide)]
  simp only
  rcases hc with rfl | rfl
  · rfl
  · rfl

/-- What is written is read. -/
theorem reads_written {it : JItem} {t : List Char} (h : JsonWritten it t) : ReadsItem it t := by
  induction h with
  | null =>
    intro rest n _ hn
    cases n with
    | zero => simp at hn
    | succ n =>
      show readValue (n + 1) (110 :: 117 :: 108 :: 108 :: rest) = _
      rw [readValue, skip_cons (by decide)]
      rfl
  | yes =>
    intro rest n _ hn
    cases n with
    | zero => simp at hn
    | succ n =>
      show readValue (n + 1) (116 :: 114 :: 117 :: 101 :: rest) = _
      rw [readValue, skip_cons (by decide)]
      rfl
  | no =>
    intro rest n _ hn
    cases n with
    | zero => simp at hn
    | succ n =>
      show readValue (n + 1) (102 :: 97 :: 108 :: 115 :: 101 :: rest) = _
      rw [readValue, skip_cons (by decide)]
      rfl
  | @num t hnum =>
    intro rest n hr hn
    have hpos := value_pos (.num hnum)
    cases n with
    | zero => omega
    | succ n =>
      have h1 := readNumber_of hnum hr
      obtain ⟨b, bs, e, hb⟩ := number_head hnum rest
      rw [readValue, value_skip (.num hnum)]
      rw [e] at h1 ⊢
      simp only
      have hne : b ≠ 34 ∧ b ≠ 91 ∧ b ≠ 123 ∧ b ≠ 116 ∧ b ≠ 102 ∧ b ≠ 110 := by
        refine ⟨?_, ?_, ?_, ?_, ?_, ?_⟩ <;> (rintro rfl; rcases hb with hb | hb <;> revert hb <;> decide)
      rw [if_neg hne.1, if_neg hne.2.1, if_neg hne.2.2.1, if_neg hne.2.2.2.1, if_neg hne.2.2.2.2.1, if_neg hne.2.2.2.2.2, h1]
      rfl
  | @str s t hs =>
    intro rest n _ hn
    cases n with
    | zero => simp at hn
    | succ n =>
      rw [utf8_ascii (by decide), utf8_append]
      show readValue (n + 1) (34 :: (utf8 t ++ [34] ++ rest)) = _
      rw [readValue, skip_cons (by decide)]
      simp only
      rw [if_pos trivial, List.append_assoc, List.singleton_append,
        readString_of hs _ _ (by have := utf8_length t; simp; omega)]
      rfl
  | @noElements b hb =>
    intro rest n _ hn
    cases n with
    | zero => simp at hn
    | succ n =>
      rw [utf8_ascii (by decide), utf8_append]
      show readValue (n + 1) (91 :: (utf8 b ++ [93] ++ rest)) = _
      rw [readValue, skip_cons (by decide)]
      simp only
      rw [if_neg (by decide), if_pos trivial, List.append_assoc, List.singleton_append, skip_append hb, skip_cons (by decide)]
      rfl
  | @arr l t hl ih =>
    intro rest n _ hn
    cases n with
    | zero => simp at hn
    | succ n =>
      rw [utf8_ascii (by decide), utf8_append]
      show readValue (n + 1) (91 :: (utf8 t ++ [93] ++ rest)) = _
      rw [readValue, skip_cons (by decide)]
      simp only
      rw [if_neg (by decide), if_pos trivial, List.append_assoc, List.singleton_append]
      obtain ⟨d, t', e, hd⟩ := elements_skip hl (93 :: rest)
      rw [e]
      simp only
      rw [if_neg hd, ih rest n (by simp at hn; omega)]
      rfl
  | @noMembers b hb =>
    intro rest n _ hn
    cases n with
    | zero => simp at hn
    | succ n =>
      rw [utf8_ascii (by decide), utf8_append]
      show readValue (n + 1) (123 :: (utf8 b ++ [125] ++ rest)) = _
      rw [readValue, skip_cons (by decide)]
      simp only
      rw [if_neg (by decide), if_neg (by decide), if_pos trivial, List.append_assoc, List.singleton_append, skip_append hb, skip_cons (by decide)]
      rfl
  | @obj l t hl ih =>
    intro rest n _ hn
    cases n with
    | zero => simp at hn
    | succ n =>
      rw [utf8_ascii (by decide), utf8_append]
      show readValue (n + 1) (123 :: (utf8 t ++ [125] ++ rest)) = _
      rw [readValue, skip_cons (by decide)]
      simp only
      rw [if_neg (by decide), if_neg (by decide), if_pos trivial, List.append_assoc, List.singleton_append]
      obtain ⟨t', e⟩ := members_skip hl (125 :: rest)
      rw [e]
      simp only
      rw [if_neg (by decide), ih rest n (by simp at hn; omega)]
      rfl
  | @element v b t b' hb _ hb' ih =>
    intro rest n hn
    cases n with
    | zero => simp at hn
    | succ n =>
      rw [readElements_first hb hb' (.inl rfl) (ih _ n (stops_blank hb' (by simp) _) (by simp at hn; omega))]
      rfl
  | @elements v l b t b' u hb ht hb' hu ih ihu =>
    intro rest n hn
    have hpos := value_pos ht
    cases n with
    | zero => simp at hn
    | succ n =>
      have e : utf8 (b ++ (t ++ (b' ++ ',' :: u))) ++ 93 :: rest = utf8 (b ++ (t ++ b')) ++ 44 :: (utf8 u ++ 93 :: rest) := by
        simp only [utf8_append, utf8_ascii (c := ',') (by decide), List.append_assoc]
        rfl
      rw [e, readElements_first hb hb' (.inr rfl) (ih _ n (stops_blank hb' (by simp) _) (by simp at hn; omega)), if_neg (by decide),
        ihu rest n (by simp at hn; omega)]
      rfl
  | @member k v b kt b1 b2 t b' hb hk hb1 hb2 _ hb' ih =>
    intro rest n hn
    cases n with
    | zero => simp at hn
    | succ n =>
      rw [readMembers_first hb hk hb1 hb2 hb' (.inl rfl) (ih _ n (stops_blank hb' (by simp) _) (by simp at hn; omega))]
      rfl
  | @members k v l b kt b1 b2 t b' u hb hk hb1 hb2 ht hb' hu ih ihu =>
    intro rest n hn
    cases n with
    | zero => simp at hn
    | succ n =>
      have e : utf8 (b ++ '"' :: (kt ++ '"' :: (b1 ++ ':' :: (b2 ++ (t ++ (b' ++ ',' :: u)))))) ++ 125 :: rest =
          utf8 (b ++ '"' :: (kt ++ '"' :: (b1 ++ ':' :: (b2 ++ (t ++ b'))))) ++ 44 :: (utf8 u ++ 125 :: rest) := by
        simp only [utf8_append, utf8_ascii (c := ',') (by decide), utf8_ascii (c := '"') (by decide), utf8_ascii (c := ':') (by decide), List.append_assoc, List.cons_append]
        rfl
      rw [e, readMembers_first hb hk hb1 hb2 hb' (.inr rfl) (ih _ n (stops_blank hb' (by simp) _) (by simp at hn; omega)), if_neg (by decide),
        ihu rest n (by simp at hn; omega)]
      rfl

theorem readJson_of {v : JVal} {text : List Char} (h : JsonText v text) : readJson (utf8 text) = some (val v) := by
  obtain ⟨b, t, b', rfl, hb, ht, hb'⟩ := h
  have := reads_written ht (utf8 b') ((utf8 (b ++ (t ++ b'))).length + 1) (stops_end hb') (by
    have := utf8_length (b ++ (t ++ b'))
    simp at this ⊢
    omega)
  unfold readJson
  rw [show readValue ((utf8 (b ++ (t ++ b'))).length + 1) (utf8 (b ++ (t ++ b'))) = some (val v, utf8 b') by
    conv_lhs => rw [utf8_append b, utf8_append t]
    rw [utf8_append, utf8_append] at this
    rw [readValue_blank hb]
    exact this]
  simp only
  rw [if_pos]
  have := skip_append hb' []
  rw [List.append_nil] at this
  exact this

/-! ### what is read was written -/

/-- The text read behind white space begins with an ASCII character. -/
theorem skip_head {text : List Char} {c : UInt8} {s : Bytes} (h : skipBlank (utf8 text) = c :: s) (hc : c.toNat < 128) :
    ∃ b cs, text = b ++ Char.ofNat c.toNat :: cs ∧ Blanks b ∧ s = utf8 cs := by
  obtain ⟨b, post, rfl, hb, e⟩ := skip_utf8 text
  rw [e] at h
  obtain ⟨cs, rfl, rfl⟩ := ascii_head h hc
  exact ⟨b, cs, rfl, hb, rfl⟩

theorem readName_some {name : List Char} {v v' : Value} {text : List Char} {r : Bytes}
    (h : readName (utf8 name) v (utf8 text) = some (v', r)) : ∃ post, text = name ++ post ∧ v' = v ∧ r = utf8 post := by
  unfold readName at h
  split at h
  · rename_i ht
    simp only [Option.some.injEq, Prod.mk.injEq] at h
    obtain ⟨rfl, rfl⟩ := h
    have : ∀ (name text : List Char) (s : Bytes), utf8 text = utf8 name ++ s → ∃ post, text = name ++ post ∧ s = utf8 post := by
      intro name
      induction name with
      | nil => intro text s e; exact ⟨text, rfl, e.symm⟩
      | cons c cs ih =>
        intro text s e
        have hd := decodeRune_encode c (utf8 cs ++ s)
        rw [utf8_cons, List.append_assoc] at e
        cases text with
        | nil => exact absurd (List.append_eq_nil_iff.1 e.symm).1 (utf8EncodeChar_ne_nil c)
        | cons d ds =>
          rw [utf8_cons] at e
          have hd' := decodeRune_encode d (utf8 ds)
          rw [e, hd] at hd'
          simp only [Prod.mk.injEq] at hd'
          have hcd : c = d := by
            rw [← Char.ofNat_toNat c, hd'.1, Char.ofNat_toNat]
          subst hcd
          obtain ⟨post, rfl, rfl⟩ := ih ds s (List.append_cancel_left e)
          exact ⟨post, rfl, rfl⟩
    obtain ⟨post, rfl, e⟩ := this name text _ (by
      conv_lhs => rw [← List.take_append_drop (utf8 name).length (utf8 text), ht])
    exact ⟨post, rfl, rfl, e⟩
  · cases h

theorem written_of_read : ∀ n : Nat,
    (∀ (text : List Char) (v : Value) (r : Bytes), readValue n (utf8 text) = some (v, r) →
      ∃ jv b t post, text = b ++ (t ++ post) ∧ Blanks b ∧ JsonWritten (.value jv) t ∧ v = val jv ∧ r = utf8 post) ∧
    (∀ (text : List Char) (vs : List Value) (r : Bytes), readElements n (utf8 text) = some (vs, r) →
      ∃ l t post, text = t ++ ']' :: post ∧ JsonWritten (.elements l) t ∧ vs = vals l ∧ r = utf8 post) ∧
    (∀ (text : List Char) (kvs : List (Bytes × Value)) (r : Bytes), readMembers n (utf8 text) = some (kvs, r) →
      ∃ l t post, text = t ++ '}' :: post ∧ JsonWritten (.members l) t ∧ kvs = membs l ∧ r = utf8 post) := by
  intro n
  induction n with
  | zero =>
    refine ⟨?_, ?_, ?_⟩ <;> (intro _ _ _ h; simp only [readValue, readElements, readMembers] at h; cases h)
  | succ n ih =>
    obtain ⟨ihv, ihe, ihm⟩ := ih
    refine ⟨?_, ?_, ?_⟩
    · intro text v r h
      rw [readValue] at h
      split at h
      · cases h
      rename_i c t hsk
      split at h
      · rename_i hc; subst hc
        obtain ⟨b, cs, rfl, hb, rfl⟩ := skip_head hsk (by decide)
        rw [Option.map_eq_some_iff] at h
        obtain ⟨⟨s1, r1⟩, h, hh⟩ := h
        simp only [Prod.mk.injEq] at hh
        obtain ⟨rfl, rfl⟩ := hh
        obtain ⟨js, t, post, rfl, hs, rfl, rfl⟩ := readString_some _ _ _ _ h
        exact ⟨.str js, b, _, post, by simp only [List.cons_append, List.append_assoc]; rfl, hb, .str hs, rfl, rfl⟩
      split at h
      · rename_i hc; subst hc
        obtain ⟨b, cs, rfl, hb, rfl⟩ := skip_head hsk (by decide)
        split at h
        · cases h
        rename_i d t' hsk'
        split at h
        · rename_i hd; subst hd
          obtain ⟨b', cs', rfl, hb', rfl⟩ := skip_head hsk' (by decide)
          simp only [Option.some.injEq, Prod.mk.injEq] at h
          obtain ⟨rfl, rfl⟩ := h
          exact ⟨.arr [], b, _, cs', by simp only [List.cons_append, List.append_assoc]; rfl, hb, .noElements hb', rfl, rfl⟩
        · rw [Option.map_eq_some_iff] at h
          obtain ⟨⟨s1, r1⟩, h, hh⟩ := h
          simp only [Prod.mk.injEq] at hh
          obtain ⟨rfl, rfl⟩ := hh
          obtain ⟨l, t, post, rfl, hl, rfl, rfl⟩ := ihe _ _ _ h
          exact ⟨.arr l, b, _, post, by simp only [List.cons_append, List.append_assoc]; rfl, hb, .arr hl, rfl, rfl⟩
      split at h
      · rename_i hc; subst hc
        obtain ⟨b, cs, rfl, hb, rfl⟩ := skip_head hsk (by decide)
        split at h
        · cases h
        rename_i d t' hsk'
        split at h
        · rename_i hd; subst hd
          obtain ⟨b', cs', rfl, hb', rfl⟩ := skip_head hsk' (by decide)
          simp only [Option.some.injEq, Prod.mk.injEq] at h
          obtain ⟨rfl, rfl⟩ := h
          exact ⟨.obj [], b, _, cs', by simp only [List.cons_append, List.append_assoc]; rfl, hb, .noMembers hb', rfl, rfl⟩
        · rw [Option.map_eq_some_iff] at h
          obtain ⟨⟨s1, r1⟩, h, hh⟩ := h
          simp only [Prod.mk.injEq] at hh
          obtain ⟨rfl, rfl⟩ := hh
          obtain ⟨l, t, post, rfl, hl, rfl, rfl⟩ := ihm _ _ _ h
          exact ⟨.obj l, b, _, post, by simp only [List.cons_append, List.append_assoc]; rfl, hb, .obj hl, rfl, rfl⟩
      obtain ⟨b, post, rfl, hb, e⟩ := skip_utf8 text
      rw [e] at hsk
      rw [← hsk] at h
      split at h
      · obtain ⟨post', rfl, rfl, rfl⟩ := readName_some (name := "true".toList) h
        exact ⟨.bool true, b, _, post', rfl, hb, .yes, rfl, rfl⟩
      split at h
      · obtain ⟨post', rfl, rfl, rfl⟩ := readName_some (name := "false".toList) h
        exact ⟨.bool false, b, _, post', rfl, hb, .no, rfl, rfl⟩
      split at h
      · obtain ⟨post', rfl, rfl, rfl⟩ := readName_some (name := "null".toList) h
        exact ⟨.null, b, _, post', rfl, hb, .null, rfl, rfl⟩
      rw [Option.map_eq_some_iff] at h
      obtain ⟨⟨s1, r1⟩, h, hh⟩ := h
      simp only [Prod.mk.injEq] at hh
      obtain ⟨rfl, rfl⟩ := hh
      obtain ⟨t, post', rfl, hn, rfl, rfl⟩ := readNumber_some h
      exact ⟨.num t, b, t, post', rfl, hb, .num hn, rfl, rfl⟩
    · intro text vs r h
      rw [readElements] at h
      split at h
      · cases h
      rename_i v t hv
      obtain ⟨jv, b, t1, post, rfl, hb, ht, rfl, rfl⟩ := ihv _ _ _ hv
      split at h
      · cases h
      rename_i d t' hsk
      split at h
      · rename_i hd; subst hd
        obtain ⟨b', cs, rfl, hb', rfl⟩ := skip_head hsk (by decide)
        simp only [Option.some.injEq, Prod.mk.injEq] at h
        obtain ⟨rfl, rfl⟩ := h
        exact ⟨[jv], _, cs, by simp only [List.append_assoc]; rfl, .element hb ht hb', rfl, rfl⟩
      split at h
      · rename_i hd; subst hd
        obtain ⟨b', cs, rfl, hb', rfl⟩ := skip_head hsk (by decide)
        rw [Option.map_eq_some_iff] at h
        obtain ⟨⟨s1, r1⟩, h, hh⟩ := h
        simp only [Prod.mk.injEq] at hh
        obtain ⟨rfl, rfl⟩ := hh
        obtain ⟨l, t, post, rfl, hl, rfl, rfl⟩ := ihe _ _ _ h
        exact ⟨jv :: l, _, post, by simp only [List.append_assoc, List.cons_append]; rfl, .elements hb ht hb' hl, rfl, rfl⟩
      · cases h
    · intro text kvs r h
      rw [readMembers] at h
      split at h
      · cases h
      rename_i q s' hsk
      split at h
      · rename_i hq; subst hq
        obtain ⟨b, cs, rfl, hb, rfl⟩ := skip_head hsk (by decide)
        split at h
        · cases h
        rename_i k s1 hk
        obtain ⟨jk, kt, post, rfl, hkt, rfl, rfl⟩ := readString_some _ _ _ _ hk
        split at h
        · cases h
        rename_i col s2 hsk2
        split at h
        · rename_i hcol; subst hcol
          obtain ⟨b1, cs1, rfl, hb1, rfl⟩ := skip_head hsk2 (by decide)
          split at h
          · cases h
          rename_i v t hv
          obtain ⟨jv, b2, t1, post, rfl, hb2, ht, rfl, rfl⟩ := ihv _ _ _ hv
          split at h
          · cases h
          rename_i d t' hsk3
          split at h
          · rename_i hd; subst hd
            obtain ⟨b', cs, rfl, hb', rfl⟩ := skip_head hsk3 (by decide)
            simp only [Option.some.injEq, Prod.mk.injEq] at h
            obtain ⟨rfl, rfl⟩ := h
            exact ⟨[(jk, jv)], _, cs, by simp only [List.append_assoc, List.cons_append]; rfl, .member hb hkt hb1 hb2 ht hb', rfl, rfl⟩
          split at h
          · rename_i hd; subst hd
            obtain ⟨b', cs, rfl, hb', rfl⟩ := skip_head hsk3 (by decide)
            rw [Option.map_eq_some_iff] at h
            obtain ⟨⟨s1, r1⟩, h, hh⟩ := h
            simp only [Prod.mk.injEq] at hh
            obtain ⟨rfl, rfl⟩ := hh
            obtain ⟨l, t, post, rfl, hl, rfl, rfl⟩ := ihm _ _ _ h
            exact ⟨(jk, jv) :: l, _, post, by simp only [List.append_assoc, List.cons_append]; rfl, .members hb hkt hb1 hb2 ht hb' hl, rfl, rfl⟩
          · cases h
        · cases h
      · cases h

/-- A text is read iff it is a JSON text. -/
theorem readJson_iff {text : List Char} {v : Value} : readJson (utf8 text) = some v ↔ ∃ jv, JsonText jv text ∧ v = val jv := by
  constructor
  · intro h
    unfold readJson at h
    split at h
    · rename_i v' rest hv
      split at h
      · rename_i hr
        cases h
        obtain ⟨jv, b, t, post, rfl, hb, ht, rfl, rfl⟩ := (written_of_read _).1 _ _ _ hv
        obtain ⟨b', post', rfl, hb', e⟩ := skip_utf8 post
        rw [e] at hr
        have : post' = [] := by
          cases post' with
          | nil => rfl
          | cons c cs =>
            rw [utf8_cons] at hr
            exact absurd (List.append_eq_nil_iff.1 hr).1 (utf8EncodeChar_ne_nil c)
        subst this
        exact ⟨jv, ⟨b, t, b', by simp, hb, ht, hb'⟩, rfl⟩
      · cases h
    · cases h
  · rintro ⟨jv, h, rfl⟩
    exact readJson_of h

end Verif.Conf
