import Verif.Proofs.ConfigFields
/- Which JSON values are accepted. -/
namespace Verif.Conf
open Verif Spec Verif.Wire

theorem digits_isDigits {t : List Char} (h : Digits t) : IsDigits (utf8 t) := by
  obtain ⟨h1, h2⟩ := digits_bytes h
  refine ⟨h1, fun b hb => ?_⟩
  have := h2 b hb
  simpa [isDigit] using this

theorem utf8_bytes_ascii : ∀ {t : List Char}, (∀ b ∈ utf8 t, b.toNat < 128) → ∀ c ∈ t, UInt8.ofNat c.toNat ∈ utf8 t ∧ c.toNat < 128 := by
  intro t
  induction t with
  | nil => intro _ c hc; cases hc
  | cons d t ih =>
    intro h c hc
    by_cases hd : d.toNat < 128
    · rw [utf8_ascii hd] at h ⊢
      rcases List.mem_cons.1 hc with rfl | hc
      · exact ⟨List.mem_cons_self, hd⟩
      · obtain ⟨h1, h2⟩ := ih (fun b hb => h b (List.mem_cons_of_mem _ hb)) c hc
        exact ⟨List.mem_cons_of_mem _ h1, h2⟩
    · exfalso
      obtain ⟨b, bs, e, hb⟩ := encode_high (c := d) (by omega)
      have := h b (by rw [utf8_cons, e]; simp)
      omega

theorem isDigits_digits {t : List Char} (h : IsDigits (utf8 t)) : Digits t := by
  refine ⟨utf8_ne_nil h.1, fun c hc => ?_⟩
  obtain ⟨h1, h2⟩ := utf8_bytes_ascii (fun b hb => by have := h.2 b hb; omega) c hc
  have := h.2 _ h1
  rw [ofNat_toNat (by omega)] at this
  exact this

theorem storeUint8_iff {b : Nat} {t : List Char} {n : Nat} : storeUint8 b (val (.num t)) = some n ↔ ByteValue (.num t) n := by
  show (match parseUint (utf8 t) with
    | .ok n => if n.toNat < 256 then some n.toNat else none
    | .error _ => none) = some n ↔ _
  constructor
  · intro h
    split at h
    · rename_i m hm
      rw [parseUint_ok] at hm
      split at h
      · rename_i hlt
        cases h
        exact ⟨t, rfl, Or.inl ⟨hm.1, by rw [hm.2]⟩, isDigits_digits hm.1, hlt⟩
      · cases h
    · cases h
  · rintro ⟨t', e, h1, h2, h3⟩
    cases e
    have hd := digits_isDigits h2
    have hv : n = decimalValue (utf8 t) := by
      rcases h1 with ⟨_, h⟩ | ⟨d, e, _⟩ | ⟨d, e, _⟩
      · exact_mod_cast h
      · have := hd.2 43 (by rw [e]; exact List.mem_cons_self); simp at this
      · have := hd.2 45 (by rw [e]; exact List.mem_cons_self); simp at this
    obtain ⟨v, hv1, hv2⟩ := (parseUint_spec (utf8 t)).1 ⟨hd, by omega⟩
    rw [hv1]
    simp only
    rw [hv2, ← hv, if_pos h3]

theorem storeUint8_of {b : Nat} {v : JVal} {n : Nat} (h : ByteValue v n) : storeUint8 b (val v) = some n := by
  obtain ⟨t, rfl, h'⟩ := id h
  exact storeUint8_iff.2 h

theorem text_accepted {b : Bytes} {v : JVal} : (storeText b (val v)).isSome = true ↔ TextOrNull v := by
  cases v <;> simp [val, storeText, TextOrNull, TextValue]

theorem int_accepted {b : Int} {v : JVal} : (storeInt b (val v)).isSome = true ↔ IntOrNull v := by
  cases v with
  | num t =>
    simp only [val, storeInt, IntOrNull, IntValue, reduceCtorEq, false_or]
    constructor
    · intro h
      cases hp : parseInt (utf8 t) with
      | error e => rw [hp] at h; simp [Except.toOption] at h
      | ok n => exact ⟨n, t, rfl, parseInt_ok.1 hp⟩
    · rintro ⟨n, t', e, h⟩
      cases e
      rw [parseInt_ok.2 h]; rfl
  | _ => simp [val, storeInt, IntOrNull, IntValue]

theorem byte_accepted {b : Nat} {v : JVal} : (storeUint8 b (val v)).isSome = true ↔ ByteOrNull v := by
  cases v with
  | num t =>
    rw [Option.isSome_iff_exists]
    simp only [ByteOrNull, reduceCtorEq, false_or]
    exact exists_congr fun n => storeUint8_iff
  | _ => simp [val, storeUint8, ByteOrNull, ByteValue]

theorem mapM_isSome {α β : Type} (f : α → Option β) : ∀ l : List α, (l.mapM f).isSome = true ↔ ∀ x ∈ l, (f x).isSome = true := by
  intro l
  induction l with
  | nil => simp
  | cons a l ih =>
    rw [List.mapM_cons, List.forall_mem_cons, ← ih]
    cases h : f a with
    | none => simp
    | some b => cases h' : l.mapM f <;> simp

theorem vals_eq (l : List JVal) : vals l = l.map val := by
  induction l with
  | nil => rfl
  | cons v l ih => rw [vals, ih]; rfl

theorem membs_eq (l : List (List Char × JVal)) : membs l = l.map fun kv => (utf8 kv.1, val kv.2) := by
  induction l with
  | nil => rfl
  | cons v l ih => obtain ⟨k, v⟩ := v; rw [membs, ih]; rfl

theorem texts_accepted {v : JVal} : (storeTexts (val v)).isSome = true ↔ TextsOrNull v := by
  cases v with
  | arr l =>
    simp only [val, storeTexts, TextsOrNull, reduceCtorEq, false_or, mapM_isSome, vals_eq, List.forall_mem_map, text_accepted]
    simp
  | _ => simp [val, storeTexts, TextsOrNull]

theorem pair_accepted {b : Bytes × Bytes} {v : JVal} : (storePair b (val v)).isSome = true ↔ PairOrNull v := by
  cases v with
  | arr l =>
    simp only [PairOrNull, reduceCtorEq, false_or, JVal.arr.injEq, exists_eq_left']
    match l with
    | [] => simp [val, vals, storePair]
    | [a] => simp [val, vals, storePair, text_accepted]
    | a :: c :: l =>
      simp only [val, vals, List.take_succ_cons, List.take_zero, List.forall_mem_cons, storePair]
      rw [← text_accepted (b := b.1), ← text_accepted (b := b.2)]
      cases h1 : storeText b.1 (val a) <;> cases h2 : storeText b.2 (val c) <;> simp
  | _ => simp [val, storePair, PairOrNull]

/-- A field is stored if all the values with its name are of its type. -/
theorem all_accepted {β : Type} {name : String} (hn : name ∈ fieldNames) {st : β → Value → Option β} {P : JVal → Prop}
    (h : ∀ b v, (st b (val v)).isSome = true ↔ P v) (l : List (List Char × JVal)) (b : β) :
    (storeAll name st b (membs l)).isSome = true ↔ ∀ kv ∈ l, SameName kv.1 name → P kv.2 := by
  induction l generalizing b with
  | nil => simp [membs, storeAll]
  | cons kv l ih =>
    obtain ⟨k, v⟩ := kv
    rw [List.forall_mem_cons, membs, storeAll, foldlM_cons]
    by_cases hk : SameName k name
    · have hf : isField name (utf8 k) = true := by rw [isField_utf8 hn]; exact decide_eq_true hk
      rw [one_hit hf, ← h b v]
      dsimp only
      cases hs : st b (val v) with
      | none => simp [hk]
      | some x => rw [Option.bind_some]; exact (ih x).trans (by simp)
    · have hf : isField name (utf8 k) = false := by rw [isField_utf8 hn]; exact decide_eq_false hk
      rw [one_miss hf, Option.bind_some]
      exact (ih b).trans (by simp [hk])

theorem fields_accepted (l : List (List Char × JVal)) (d : Description) :
    ((membs l).foldlM storeField d).isSome = true ↔ ∀ kv ∈ l, IndexMember kv.1 kv.2 := by
  have key : ((membs l).foldlM storeField d).isSome = true ↔ (storeAll "driver" storeText d.driver (membs l)).isSome = true ∧
      (storeAll "name" storeText d.name (membs l)).isSome = true ∧ (storeAll "nGramSize" storeInt d.nGramSize (membs l)).isSome = true ∧
      (storeAll "source" storeText d.source (membs l)).isSome = true ∧ (storeAll "output" storeText d.output (membs l)).isSome = true ∧
      (storeAll "alphabet" (fun _ => storeTexts) d.alphabet (membs l)).isSome = true ∧
      (storeAll "pad" storeText d.pad (membs l)).isSome = true ∧ (storeAll "wrap" storePair d.wrap (membs l)).isSome = true := by
    simp only [Option.isSome_iff_exists]
    constructor
    · rintro ⟨d', h⟩
      obtain ⟨h1, h2, h3, h4, h5, h6, h7, h8, _⟩ := storeFields_some.1 h
      exact ⟨⟨_, h1⟩, ⟨_, h2⟩, ⟨_, h3⟩, ⟨_, h4⟩, ⟨_, h5⟩, ⟨_, h6⟩, ⟨_, h7⟩, ⟨_, h8⟩⟩
    · rintro ⟨⟨x1, h1⟩, ⟨x2, h2⟩, ⟨x3, h3⟩, ⟨x4, h4⟩, ⟨x5, h5⟩, ⟨x6, h6⟩, ⟨x7, h7⟩, ⟨x8, h8⟩⟩
      exact ⟨⟨x1, x2, x3, x4, x5, x6, x7, x8, d.basePath⟩, storeFields_some.2 ⟨h1, h2, h3, h4, h5, h6, h7, h8, rfl⟩⟩
  rw [key, all_accepted (by decide) (fun _ _ => text_accepted), all_accepted (by decide) (fun _ _ => text_accepted),
    all_accepted (by decide) (fun _ _ => int_accepted), all_accepted (by decide) (fun _ _ => text_accepted),
    all_accepted (by decide) (fun _ _ => text_accepted), all_accepted (by decide) (fun _ _ => texts_accepted),
    all_accepted (by decide) (fun _ _ => text_accepted), all_accepted (by decide) (fun _ _ => pair_accepted)]
  constructor
  · rintro ⟨h1, h2, h3, h4, h5, h6, h7, h8⟩ kv hkv
    refine ⟨fun n hn => ?_, h3 kv hkv, h6 kv hkv, h8 kv hkv⟩
    simp only [List.mem_cons, List.not_mem_nil, or_false] at hn
    rcases hn with rfl | rfl | rfl | rfl | rfl
    · exact h1 kv hkv
    · exact h2 kv hkv
    · exact h4 kv hkv
    · exact h5 kv hkv
    · exact h7 kv hkv
  · intro h
    exact ⟨fun kv hkv => (h kv hkv).texts _ (by decide), fun kv hkv => (h kv hkv).texts _ (by decide), fun kv hkv => (h kv hkv).nGramSize,
      fun kv hkv => (h kv hkv).texts _ (by decide), fun kv hkv => (h kv hkv).texts _ (by decide), fun kv hkv => (h kv hkv).alphabet,
      fun kv hkv => (h kv hkv).texts _ (by decide), fun kv hkv => (h kv hkv).wrap⟩

theorem modelFields_accepted (l : List (List Char × JVal)) (d : ModelConfig) :
    ((membs l).foldlM storeModelField d).isSome = true ↔ ∀ kv ∈ l, ModelMember kv.1 kv.2 := by
  have key : ((membs l).foldlM storeModelField d).isSome = true ↔ (storeAll "name" storeText d.name (membs l)).isSome = true ∧
      (storeAll "nGramOrder" storeUint8 d.nGramOrder (membs l)).isSome = true ∧
      (storeAll "source" storeText d.source (membs l)).isSome = true ∧ (storeAll "output" storeText d.output (membs l)).isSome = true ∧
      (storeAll "alphabet" (fun _ => storeTexts) d.alphabet (membs l)).isSome = true ∧
      (storeAll "separators" (fun _ => storeTexts) d.separators (membs l)).isSome = true ∧
      (storeAll "startSymbol" storeText d.startSymbol (membs l)).isSome = true ∧
      (storeAll "endSymbol" storeText d.endSymbol (membs l)).isSome = true := by
    simp only [Option.isSome_iff_exists]
    constructor
    · rintro ⟨d', h⟩
      obtain ⟨h1, h2, h3, h4, h5, h6, h7, h8, _⟩ := storeModelFields_some.1 h
      exact ⟨⟨_, h1⟩, ⟨_, h2⟩, ⟨_, h3⟩, ⟨_, h4⟩, ⟨_, h5⟩, ⟨_, h6⟩, ⟨_, h7⟩, ⟨_, h8⟩⟩
    · rintro ⟨⟨x1, h1⟩, ⟨x2, h2⟩, ⟨x3, h3⟩, ⟨x4, h4⟩, ⟨x5, h5⟩, ⟨x6, h6⟩, ⟨x7, h7⟩, ⟨x8, h8⟩⟩
      exact ⟨⟨x1, x2, x3, x4, x5, x6, x7, x8, d.basePath⟩, storeModelFields_some.2 ⟨h1, h2, h3, h4, h5, h6, h7, h8, rfl⟩⟩
  rw [key, all_accepted (by decide) (fun _ _ => text_accepted), all_accepted (by decide) (fun _ _ => byte_accepted),
    all_accepted (by decide) (fun _ _ => text_accepted), all_accepted (by decide) (fun _ _ => text_accepted),
    all_accepted (by decide) (fun _ _ => texts_accepted), all_accepted (by decide) (fun _ _ => texts_accepted),
    all_accepted (by decide) (fun _ _ => text_accepted), all_accepted (by decide) (fun _ _ => text_accepted)]
  constructor
  · rintro ⟨h1, h2, h3, h4, h5, h6, h7, h8⟩ kv hkv
    refine ⟨fun n hn => ?_, h2 kv hkv, fun n hn => ?_⟩
    · simp only [List.mem_cons, List.not_mem_nil, or_false] at hn
      rcases hn with rfl | rfl | rfl | rfl | rfl
      · exact h1 kv hkv
      · exact h3 kv hkv
      · exact h4 kv hkv
      · exact h7 kv hkv
      · exact h8 kv hkv
    · simp only [List.mem_cons, List.not_mem_nil, or_false] at hn
      rcases hn with rfl | rfl
      · exact h5 kv hkv
      · exact h6 kv hkv
  · intro h
    exact ⟨fun kv hkv => (h kv hkv).texts _ (by decide), fun kv hkv => (h kv hkv).nGramOrder,
      fun kv hkv => (h kv hkv).texts _ (by decide), fun kv hkv => (h kv hkv).texts _ (by decide), fun kv hkv => (h kv hkv).lists _ (by decide),
      fun kv hkv => (h kv hkv).lists _ (by decide), fun kv hkv => (h kv hkv).texts _ (by decide), fun kv hkv => (h kv hkv).texts _ (by decide)⟩

theorem descriptions_accepted (v : JVal) : (storeDescriptions (val v)).isSome = true ↔ IndexList v := by
  cases v with
  | arr l =>
    simp only [val, storeDescriptions, mapM_isSome, vals_eq, List.forall_mem_map, IndexList, reduceCtorEq, false_or, JVal.arr.injEq,
      exists_eq_left']
    refine forall_congr' fun e => imp_congr_right fun _ => ?_
    cases e with
    | obj ms =>
      simp only [val, storeDescription, reduceCtorEq, false_or, JVal.obj.injEq, exists_eq_left']
      exact fields_accepted ms {}
    | _ => simp [val, storeDescription]
  | _ => simp [val, storeDescriptions, IndexList]

theorem model_accepted (v : JVal) : (storeModelConfig (val v)).isSome = true ↔ ModelValue v := by
  cases v with
  | obj ms =>
    simp only [val, storeModelConfig, ModelValue, reduceCtorEq, false_or, JVal.obj.injEq, exists_eq_left']
    exact modelFields_accepted ms {}
  | _ => simp [val, storeModelConfig, ModelValue]

mutual
theorem val_inj : ∀ {v w : JVal}, val v = val w → v = w := by
  intro v w h
  cases v <;> cases w <;> simp only [val, reduceCtorEq, Value.num.injEq, Value.str.injEq, Value.arr.injEq, Value.obj.injEq, Value.bool.injEq] at h
  · rfl
  · rw [h]
  · rw [utf8_injective h]
  · rw [utf8_injective h]
  · rw [vals_inj h]
  · rw [membs_inj h]
theorem vals_inj : ∀ {v w : List JVal}, vals v = vals w → v = w := by
  intro v w h
  match v, w, h with
  | [], [], _ => rfl
  | [], _ :: _, h => cases h
  | _ :: _, [], h => cases h
  | a :: v, b :: w, h =>
    rw [vals, vals, List.cons.injEq] at h
    rw [val_inj h.1, vals_inj h.2]
theorem membs_inj : ∀ {v w : List (List Char × JVal)}, membs v = membs w → v = w := by
  intro v w h
  match v, w, h with
  | [], [], _ => rfl
  | [], _ :: _, h => cases h
  | _ :: _, [], h => cases h
  | (k, a) :: v, (k', b) :: w, h =>
    rw [membs, membs, List.cons.injEq, Prod.mk.injEq] at h
    rw [utf8_injective h.1.1, val_inj h.1.2, membs_inj h.2]
end

end Verif.Conf
