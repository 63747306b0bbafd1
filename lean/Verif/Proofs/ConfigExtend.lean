import Verif.Proofs.ConfigNumber
/- Reading does not depend on what follows. -/
namespace Verif.Conf
open Verif Spec Verif.Wire

theorem decode_append (b : UInt8) {t : Bytes} (h : ∃ x ∈ t, x.toNat < 128) (q : Bytes) : decodeRune (b :: (t ++ q)) = decodeRune (b :: t) := by
  have hlow : ∀ (lo hi : Nat) (x : UInt8), 0x80 ≤ lo → x.toNat < 128 → inByteRange lo hi x = false := by
    intro lo hi x h1 h2
    rw [Bool.eq_false_iff]
    intro h
    have := range_nat h
    omega
  simp only [decodeRune]
  split
  · rfl
  rename_i hb
  split
  · rfl
  rename_i len lo hi hl
  have hlo : 0x80 ≤ lo := by
    rcases lead_cases hl with h | h | h <;> omega
  match t, h with
  | [], h => obtain ⟨x, hx, _⟩ := h; cases hx
  | [b1], h =>
    obtain ⟨x, hx, hx'⟩ := h
    simp only [List.mem_singleton] at hx
    subst hx
    have := hlow lo hi x hlo hx'
    rcases len with _ | _ | _ | _ | _ | len <;> rcases q with _ | ⟨q1, _ | ⟨q2, q⟩⟩ <;> simp [this]
  | [b1, b2], h =>
    obtain ⟨x, hx, hx'⟩ := h
    have : inByteRange lo hi b1 = false ∨ inByteRange 0x80 0xBF b2 = false := by
      rcases List.mem_cons.1 hx with rfl | hx
      · exact .inl (hlow _ _ _ hlo hx')
      · simp only [List.mem_singleton] at hx
        subst hx
        exact .inr (hlow _ _ _ (by omega) hx')
    rcases len with _ | _ | _ | _ | _ | len <;> rcases q with _ | ⟨q1, q⟩ <;> rcases this with h | h <;> simp [h]
  | b1 :: b2 :: b3 :: t, _ =>
    rcases len with _ | _ | _ | _ | _ | len <;> simp

theorem drop_mem {x b : UInt8} {t : Bytes} {k : Nat} (hk : 1 ≤ k) (h : x ∈ (b :: t).drop k) : x ∈ t := by
  obtain ⟨k, rfl⟩ : ∃ j, k = j + 1 := ⟨k - 1, by omega⟩
  rw [List.drop_succ_cons] at h
  exact List.mem_of_mem_drop h

theorem hex4_append {s r : Bytes} {u : Nat} (h : hex4 s = some (u, r)) (q : Bytes) : hex4 (s ++ q) = some (u, r ++ q) := by
  obtain ⟨a, b, c, d, w, x, y, z, rfl, h1, h2, h3, h4, rfl⟩ := hex4_some h
  simp [hex4, h1, h2, h3, h4]

theorem secondHalf_append {s r : Bytes} {u x : Nat} (h : secondHalf u s = some (x, r)) (q : Bytes) :
    secondHalf u (s ++ q) = some (x, r ++ q) := by
  obtain ⟨t, v, rfl, h1, h2, h3, h4, rfl⟩ := secondHalf_some h
  show secondHalf u (92 :: 117 :: (t ++ q)) = _
  rw [secondHalf, hex4_append h1]
  simp only
  rw [if_pos ⟨h2, h3, h4⟩]

/-- Nothing that follows completes the second half of a pair, if the string ends. -/
theorem secondHalf_none {s : Bytes} {u : Nat} (h : secondHalf u s = none) {n : Nat} {x r : Bytes} (hs : readString n s = some (x, r))
    (q : Bytes) : secondHalf u (s ++ q) = none := by
  cases hx : secondHalf u (s ++ q) with
  | none => rfl
  | some p =>
    exfalso
    obtain ⟨x', r'⟩ := p
    obtain ⟨t, v, e, h1, h2, h3, h4, _⟩ := secondHalf_some hx
    obtain ⟨a, b, c, d, _, _, _, _, rfl, g1, g2, g3, g4, _⟩ := hex4_some h1
    cases n with
    | zero => simp [readString] at hs
    | succ n =>
    match s, e with
    | [], _ => simp [readString] at hs
    | [y], e =>
      simp only [List.cons_append, List.nil_append, List.cons.injEq] at e
      obtain ⟨rfl, _⟩ := e
      rw [readString_back] at hs
      simp at hs
    | [y1, y2], e =>
      simp only [List.cons_append, List.nil_append, List.cons.injEq] at e
      obtain ⟨rfl, rfl, _⟩ := e
      rw [readString_back] at hs
      simp [hex4] at hs
    | [y1, y2, y3], e =>
      simp only [List.cons_append, List.nil_append, List.cons.injEq] at e
      obtain ⟨rfl, rfl, _⟩ := e
      rw [readString_back] at hs
      simp [hex4] at hs
    | [y1, y2, y3, y4], e =>
      simp only [List.cons_append, List.nil_append, List.cons.injEq] at e
      obtain ⟨rfl, rfl, _⟩ := e
      rw [readString_back] at hs
      simp [hex4] at hs
    | [y1, y2, y3, y4, y5], e =>
      simp only [List.cons_append, List.nil_append, List.cons.injEq] at e
      obtain ⟨rfl, rfl, _⟩ := e
      rw [readString_back] at hs
      simp [hex4] at hs
    | y1 :: y2 :: y3 :: y4 :: y5 :: y6 :: s, e =>
      simp only [List.cons_append, List.cons.injEq] at e
      obtain ⟨rfl, rfl, rfl, rfl, rfl, rfl, e⟩ := e
      have : hex4 (y3 :: y4 :: y5 :: y6 :: s) = some (v, s) := by
        have h1' := hex4_append (s := y3 :: y4 :: y5 :: y6 :: []) (u := v) (r := []) (by
          simp only [hex4, g1, g2, g3, g4] at h1 ⊢
          simp only [Option.some.injEq, Prod.mk.injEq] at h1 ⊢
          exact ⟨h1.1, trivial⟩) s
        simpa using h1'
      rw [secondHalf, this] at h
      simp only at h
      rw [if_pos ⟨h2, h3, h4⟩] at h
      cases h

theorem readString_quote_mem : ∀ (n : Nat) (s x r : Bytes), readString n s = some (x, r) → (34 : UInt8) ∈ s := by
  intro n
  induction n with
  | zero => intro s x r h; simp [readString] at h
  | succ n ih =>
    intro s x r h
    cases s with
    | nil => simp [readString] at h
    | cons b t =>
      by_cases h1 : b = 34
      · simp [h1]
      by_cases h2 : b = 92
      · subst h2
        rw [readString_back] at h
        split at h
        · cases h
        split at h
        · split at h
          · cases h
          rename_i u t'' hx
          obtain ⟨a, b, c, d, _, _, _, _, rfl, _⟩ := hex4_some hx
          have key : ∀ e : UInt8, (34 : UInt8) ∈ t'' → (34 : UInt8) ∈ 92 :: e :: a :: b :: c :: d :: t'' := by
            intro e h; simp [h]
          split at h
          · split at h
            · rename_i r' t3 hs
              obtain ⟨t4, v, rfl, g1, _⟩ := secondHalf_some hs
              obtain ⟨_, _, _, _, _, _, _, _, rfl, _⟩ := hex4_some g1
              rw [Option.map_eq_some_iff] at h
              obtain ⟨⟨s1, r1⟩, h, _⟩ := h
              exact key _ (by simp [ih _ _ _ h])
            · rw [Option.map_eq_some_iff] at h
              obtain ⟨⟨s1, r1⟩, h, _⟩ := h
              exact key _ (ih _ _ _ h)
          · rw [Option.map_eq_some_iff] at h
            obtain ⟨⟨s1, r1⟩, h, _⟩ := h
            exact key _ (ih _ _ _ h)
        · split at h
          · cases h
          rw [Option.map_eq_some_iff] at h
          obtain ⟨⟨s1, r1⟩, h, _⟩ := h
          simp [ih _ _ _ h]
      · rw [readString_other n t h1 h2] at h
        split at h
        · cases h
        rw [Option.map_eq_some_iff] at h
        obtain ⟨⟨s1, r1⟩, h, _⟩ := h
        exact List.mem_cons_of_mem _ (drop_mem (decodeRune_width_pos b t) (ih _ _ _ h))

theorem readString_append : ∀ (n m : Nat) (s x r q : Bytes), readString n s = some (x, r) → n ≤ m → readString m (s ++ q) = some (x, r ++ q) := by
  intro n
  induction n with
  | zero => intro m s x r q h; simp [readString] at h
  | succ n ih =>
    intro m s x r q h hm
    obtain ⟨m, rfl⟩ : ∃ j, m = j + 1 := ⟨m - 1, by omega⟩
    have hm : n ≤ m := by omega
    cases s with
    | nil => simp [readString] at h
    | cons b t =>
      rw [List.cons_append]
      by_cases h1 : b = 34
      · subst h1
        rw [readString_quote] at h ⊢
        cases h
        rfl
      by_cases h2 : b = 92
      · subst h2
        rw [readString_back] at h
        rw [readString_back]
        cases t with
        | nil => cases h
        | cons e t' =>
          simp only [List.cons_append] at h ⊢
          by_cases he : e = 117
          · rw [if_pos he] at h ⊢
            cases hx : hex4 t' with
            | none => rw [hx] at h; cases h
            | some p =>
              obtain ⟨u, t''⟩ := p
              rw [hx] at h
              rw [hex4_append hx]
              simp only at h ⊢
              by_cases hsur : 0xD800 ≤ u ∧ u < 0xE000
              · rw [if_pos hsur] at h ⊢
                cases hs : secondHalf u t'' with
                | some p =>
                  obtain ⟨r', t3⟩ := p
                  rw [hs] at h
                  rw [secondHalf_append hs]
                  simp only at h ⊢
                  rw [Option.map_eq_some_iff] at h
                  obtain ⟨⟨s1, r1⟩, h, hh⟩ := h
                  cases hh
                  rw [ih _ _ _ _ q h hm]
                  rfl
                | none =>
                  rw [hs] at h
                  simp only at h
                  rw [Option.map_eq_some_iff] at h
                  obtain ⟨⟨s1, r1⟩, h, hh⟩ := h
                  cases hh
                  rw [secondHalf_none hs h]
                  simp only
                  rw [ih _ _ _ _ q h hm]
                  rfl
              · rw [if_neg hsur] at h ⊢
                rw [Option.map_eq_some_iff] at h
                obtain ⟨⟨s1, r1⟩, h, hh⟩ := h
                cases hh
                rw [ih _ _ _ _ q h hm]
                rfl
          · rw [if_neg he] at h ⊢
            cases hd : escapeByte e with
            | none => rw [hd] at h; cases h
            | some d =>
              rw [hd] at h
              simp only at h ⊢
              rw [Option.map_eq_some_iff] at h
              obtain ⟨⟨s1, r1⟩, h, hh⟩ := h
              cases hh
              rw [ih _ _ _ _ q h hm]
              rfl
      · rw [readString_other n t h1 h2] at h
        rw [readString_other m (t ++ q) h1 h2]
        split at h
        · cases h
        rename_i hb
        rw [if_neg hb]
        rw [Option.map_eq_some_iff] at h
        obtain ⟨⟨s1, r1⟩, h, hh⟩ := h
        cases hh
        have hmem := drop_mem (decodeRune_width_pos b t) (readString_quote_mem _ _ _ _ h)
        rw [decode_append b ⟨34, hmem, by decide⟩]
        have hle : (decodeRune (b :: t)).2 ≤ (b :: t).length := decodeRune_width_le b t
        rw [← List.cons_append, List.drop_append_of_le_length hle, ih _ _ _ _ q h hm]
        rfl

/-! ### numbers -/

theorem span_ext {p : UInt8 → Bool} {s : Bytes} (h : s.dropWhile p ≠ []) (q : Bytes) :
    (s ++ q).takeWhile p = s.takeWhile p ∧ (s ++ q).dropWhile p = s.dropWhile p ++ q := by
  induction s with
  | nil => exact absurd rfl h
  | cons b s ih =>
    rw [List.cons_append]
    simp only [List.takeWhile_cons, List.dropWhile_cons] at h ⊢
    cases hp : p b with
    | true =>
      simp only [hp, if_true] at h ⊢
      exact ⟨by rw [(ih h).1], (ih h).2⟩
    | false => simp [hp]

theorem readInt_append {s x r : Bytes} (h : readInt s = some (x, r)) (hr : r ≠ []) (q : Bytes) : readInt (s ++ q) = some (x, r ++ q) := by
  cases s with
  | nil => cases h
  | cons d t =>
    rw [readInt] at h
    rw [List.cons_append, readInt]
    split at h
    · rename_i hd
      rw [if_pos hd]
      split at h
      · rename_i h0
        rw [if_pos h0]
        cases h
        rfl
      · rename_i h0
        rw [if_neg h0]
        cases h
        obtain ⟨e1, e2⟩ := span_ext hr q
        rw [e1, e2]
    · cases h

theorem readSign_append {s : Bytes} (h : s ≠ []) (q : Bytes) : readSign (s ++ q) = ((readSign s).1, (readSign s).2 ++ q) := by
  cases s with
  | nil => exact absurd rfl h
  | cons b t =>
    by_cases hb : b = 45
    · subst hb; rfl
    · rw [List.cons_append, readSign_other (by simpa using hb), readSign_other (by simpa using hb)]
      rfl

theorem readExpSign_append {s : Bytes} (h : s ≠ []) (q : Bytes) : readExpSign (s ++ q) = ((readExpSign s).1, (readExpSign s).2 ++ q) := by
  cases s with
  | nil => exact absurd rfl h
  | cons b t =>
    by_cases hb : b = 45
    · subst hb; rfl
    by_cases hb' : b = 43
    · subst hb'; rfl
    · rw [List.cons_append, readExpSign_other (by simpa using hb') (by simpa using hb), readExpSign_other (by simpa using hb') (by simpa using hb)]
      rfl

theorem readFrac_append {s x r : Bytes} (h : readFrac s = some (x, r)) (hr : r ≠ []) (q : Bytes) : readFrac (s ++ q) = some (x, r ++ q) := by
  cases s with
  | nil => cases h; exact absurd rfl hr
  | cons b t =>
    by_cases hb : b = 46
    · subst hb
      rw [readFrac] at h
      rw [List.cons_append, readFrac]
      split at h
      · cases h
      rename_i hne
      cases h
      obtain ⟨e1, e2⟩ := span_ext hr q
      rw [e1, e2, if_neg hne]
    · rw [readFrac_other (by simpa using hb)] at h
      rw [List.cons_append, readFrac_other (by simpa using hb)]
      cases h
      rfl

theorem readExp_append {s x r : Bytes} (h : readExp s = some (x, r)) (hr : r ≠ []) (q : Bytes) : readExp (s ++ q) = some (x, r ++ q) := by
  cases s with
  | nil => cases h; exact absurd rfl hr
  | cons b t =>
    rw [readExp] at h
    rw [List.cons_append, readExp]
    split at h
    · rename_i he
      rw [if_pos he]
      split at h
      · cases h
      rename_i hne
      cases h
      have ht : t ≠ [] := by rintro rfl; exact hr rfl
      rw [readExpSign_append ht]
      obtain ⟨e1, e2⟩ := span_ext hr q
      simp only
      rw [e1, e2, if_neg hne]
    · rename_i he
      rw [if_neg he]
      cases h
      rfl

theorem readNumber_append {s x r : Bytes} (h : readNumber s = some (x, r)) (hr : r ≠ []) (q : Bytes) :
    readNumber (s ++ q) = some (x, r ++ q) := by
  unfold readNumber at h
  split at h
  · cases h
  rename_i int s1 h1
  split at h
  · cases h
  rename_i frac s2 h2
  split at h
  · cases h
  rename_i exp s3 h3
  cases h
  have hs2 : s2 ≠ [] := by rintro rfl; cases h3; exact hr rfl
  have hs1 : s1 ≠ [] := by rintro rfl; cases h2; exact hs2 rfl
  have hs : s ≠ [] := by rintro rfl; cases h1
  unfold readNumber
  rw [readSign_append hs]
  simp only
  rw [readInt_append h1 hs1]
  simp only
  rw [readFrac_append h2 hs2]
  simp only
  rw [readExp_append h3 hr]

/-! ### values -/

theorem skip_ext {s : Bytes} {d : UInt8} {t : Bytes} (h : skipBlank s = d :: t) (q : Bytes) : skipBlank (s ++ q) = d :: (t ++ q) := by
  unfold skipBlank at h ⊢
  rw [(span_ext (by rw [h]; simp) q).2, h]
  rfl

theorem readName_append {name s r : Bytes} {v v' : Value} (h : readName name v s = some (v', r)) (q : Bytes) :
    readName name v (s ++ q) = some (v', r ++ q) := by
  unfold readName at h ⊢
  split at h
  · rename_i ht
    cases h
    have hl : name.length ≤ s.length := by
      have := congrArg List.length ht
      rw [List.length_take] at this
      omega
    rw [List.take_append_of_le_length hl, if_pos ht, List.drop_append_of_le_length hl]
  · cases h

/-- A value that is not a number. -/
def NotNum : Value → Prop
  | .num _ => False
  | _ => True

theorem read_append : ∀ n : Nat,
    (∀ (m : Nat) (s : Bytes) (v : Value) (r q : Bytes), readValue n s = some (v, r) → (r ≠ [] ∨ NotNum v) → n ≤ m →
      readValue m (s ++ q) = some (v, r ++ q)) ∧
    (∀ (m : Nat) (s : Bytes) (vs : List Value) (r q : Bytes), readElements n s = some (vs, r) → n ≤ m →
      readElements m (s ++ q) = some (vs, r ++ q)) ∧
    (∀ (m : Nat) (s : Bytes) (kvs : List (Bytes × Value)) (r q : Bytes), readMembers n s = some (kvs, r) → n ≤ m →
      readMembers m (s ++ q) = some (kvs, r ++ q)) := by
  intro n
  induction n with
  | zero =>
    refine ⟨?_, ?_, ?_⟩
    · intro m s v r q h; simp only [readValue] at h; cases h
    · intro m s v r q h; simp only [readElements] at h; cases h
    · intro m s v r q h; simp only [readMembers] at h; cases h
  | succ n ih =>
    obtain ⟨ihv, ihe, ihm⟩ := ih
    refine ⟨?_, ?_, ?_⟩
    · intro m s v r q h hv hm
      obtain ⟨m, rfl⟩ : ∃ j, m = j + 1 := ⟨m - 1, by omega⟩
      have hm : n ≤ m := by omega
      rw [readValue] at h
      rw [readValue]
      split at h
      · cases h
      rename_i c t hsk
      rw [skip_ext hsk]
      simp only
      split at h
      · rename_i hc
        rw [if_pos hc]
        rw [Option.map_eq_some_iff] at h
        obtain ⟨⟨s1, r1⟩, h, hh⟩ := h
        cases hh
        rw [readString_append _ _ _ _ _ q h (by simp)]
        rfl
      rename_i hc
      rw [if_neg hc]
      split at h
      · rename_i hc
        rw [if_pos hc]
        split at h
        · cases h
        rename_i d t' hsk'
        rw [skip_ext hsk']
        simp only
        split at h
        · rename_i hd
          rw [if_pos hd]
          cases h
          rfl
        · rename_i hd
          rw [if_neg hd]
          rw [Option.map_eq_some_iff] at h
          obtain ⟨⟨s1, r1⟩, h, hh⟩ := h
          cases hh
          rw [ihe _ _ _ _ q h hm]
          rfl
      rename_i hc
      rw [if_neg hc]
      split at h
      · rename_i hc
        rw [if_pos hc]
        split at h
        · cases h
        rename_i d t' hsk'
        rw [skip_ext hsk']
        simp only
        split at h
        · rename_i hd
          rw [if_pos hd]
          cases h
          rfl
        · rename_i hd
          rw [if_neg hd]
          rw [Option.map_eq_some_iff] at h
          obtain ⟨⟨s1, r1⟩, h, hh⟩ := h
          cases hh
          rw [ihm _ _ _ _ q h hm]
          rfl
      rename_i hc
      rw [if_neg hc]
      split at h
      · rename_i hc
        rw [if_pos hc, ← List.cons_append, readName_append h]
      rename_i hc
      rw [if_neg hc]
      split at h
      · rename_i hc
        rw [if_pos hc, ← List.cons_append, readName_append h]
      rename_i hc
      rw [if_neg hc]
      split at h
      · rename_i hc
        rw [if_pos hc, ← List.cons_append, readName_append h]
      rename_i hc
      rw [if_neg hc]
      rw [Option.map_eq_some_iff] at h
      obtain ⟨⟨s1, r1⟩, h, hh⟩ := h
      cases hh
      rw [← List.cons_append, readNumber_append h (by rcases hv with h | h; exacts [h, h.elim])]
      rfl
    · intro m s vs r q h hm
      obtain ⟨m, rfl⟩ : ∃ j, m = j + 1 := ⟨m - 1, by omega⟩
      have hm : n ≤ m := by omega
      rw [readElements] at h
      rw [readElements]
      split at h
      · cases h
      rename_i v t hv
      split at h
      · cases h
      rename_i d t' hsk
      have ht : t ≠ [] := by rintro rfl; cases hsk
      rw [ihv _ _ _ _ q hv (.inl ht) hm]
      simp only
      rw [skip_ext hsk]
      simp only
      split at h
      · rename_i hd
        rw [if_pos hd]
        cases h
        rfl
      rename_i hd
      rw [if_neg hd]
      split at h
      · rename_i hd
        rw [if_pos hd]
        rw [Option.map_eq_some_iff] at h
        obtain ⟨⟨s1, r1⟩, h, hh⟩ := h
        cases hh
        rw [ihe _ _ _ _ q h hm]
        rfl
      · cases h
    · intro m s kvs r q h hm
      obtain ⟨m, rfl⟩ : ∃ j, m = j + 1 := ⟨m - 1, by omega⟩
      have hm : n ≤ m := by omega
      rw [readMembers] at h
      rw [readMembers]
      split at h
      · cases h
      rename_i c s' hsk
      rw [skip_ext hsk]
      simp only
      split at h
      · rename_i hc
        rw [if_pos hc]
        split at h
        · cases h
        rename_i k s1 hk
        rw [readString_append _ _ _ _ _ q hk (by simp)]
        simp only
        split at h
        · cases h
        rename_i col s2 hsk2
        rw [skip_ext hsk2]
        simp only
        split at h
        · rename_i hcol
          rw [if_pos hcol]
          split at h
          · cases h
          rename_i v t hv
          split at h
          · cases h
          rename_i d t' hsk3
          have ht : t ≠ [] := by rintro rfl; cases hsk3
          rw [ihv _ _ _ _ q hv (.inl ht) hm]
          simp only
          rw [skip_ext hsk3]
          simp only
          split at h
          · rename_i hd
            rw [if_pos hd]
            cases h
            rfl
          rename_i hd
          rw [if_neg hd]
          split at h
          · rename_i hd
            rw [if_pos hd]
            rw [Option.map_eq_some_iff] at h
            obtain ⟨⟨s1, r1⟩, h, hh⟩ := h
            cases hh
            rw [ihm _ _ _ _ q h hm]
            rfl
          · cases h
        · cases h
      · cases h

/-- If a beginning of a text and the whole text are both read, they have the same value (unless it is a number), and the rest is white
space. -/
theorem readJson_prefix {p q : Bytes} {v w : Value} (h : readJson p = some v) (hv : NotNum v) (h' : readJson (p ++ q) = some w) :
    w = v ∧ skipBlank q = [] := by
  unfold readJson at h h'
  split at h
  · rename_i v' r hr
    split at h
    · rename_i hsk
      cases h
      have := (read_append _).1 ((p ++ q).length + 1) p v r q hr (.inr hv) (by simp)
      rw [this] at h'
      simp only at h'
      split at h'
      · rename_i hsk'
        cases h'
        refine ⟨rfl, ?_⟩
        unfold skipBlank at hsk hsk' ⊢
        rw [List.dropWhile_eq_nil_iff] at hsk hsk' ⊢
        exact fun x hx => hsk' x (List.mem_append_right _ hx)
      · cases h'
    · cases h
  · cases h

end Verif.Conf
