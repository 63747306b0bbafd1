import Verif.Spec.Config
import Verif.Proofs.ConfigJson
import Verif.Proofs.Http
/- From a JSON value to the descriptions. -/
namespace Verif.Conf
open Verif Spec Verif.Wire

/-! ### names of fields -/

theorem toNat_ofNat_low {n : Nat} (h : n < 0xD800) : (Char.ofNat n).toNat = n := by
  rw [Char.ofNat, dif_pos (Or.inl h)]
  show (UInt32.ofNatLT n _).toNat = n
  simp

theorem fold_letter (c : Char) : foldRune c.toNat = (foldLetter c).toNat := by
  unfold foldRune foldLetter
  by_cases h : 'A' ≤ c ∧ c ≤ 'Z'
  · have h' : 65 ≤ c.toNat ∧ c.toNat ≤ 90 := h
    rw [if_pos h, if_pos h', toNat_ofNat_low (by omega)]
  · have h' : ¬ (65 ≤ c.toNat ∧ c.toNat ≤ 90) := h
    rw [if_neg h, if_neg h']
    by_cases hs : c = Char.ofNat 0x17F
    · subst hs; decide
    · have hs' : c.toNat ≠ 0x17F := fun e => hs (by rw [← e, Char.ofNat_toNat])
      rw [if_neg hs, if_neg hs']
      by_cases hk : c = Char.ofNat 0x212A
      · subst hk; decide
      · have hk' : c.toNat ≠ 0x212A := fun e => hk (by rw [← e, Char.ofNat_toNat])
        rw [if_neg hk, if_neg hk']

theorem fold_map (k : List Char) : (runesOf (utf8 k)).map foldRune = (k.map foldLetter).map Char.toNat := by
  rw [runesOf_utf8, List.map_map, List.map_map]
  exact List.map_congr_left fun c _ => fold_letter c

theorem toNat_inj {a b : List Char} (h : a.map Char.toNat = b.map Char.toNat) : a = b :=
  List.map_injective_iff.2 (fun x y h => Char.toNat_inj.1 h) h

theorem isField_of {name : String} (e : name.toUTF8.toList = utf8 name.toList) (k : List Char) :
    isField name (utf8 k) = decide (SameName k name) := by
  unfold isField
  rw [e, fold_map, fold_map]
  by_cases h : SameName k name
  · rw [decide_eq_true h, show k.map foldLetter = name.toList.map foldLetter from h]; simp
  · rw [decide_eq_false h]
    simp only [beq_eq_false_iff_ne, ne_eq]
    exact fun e => h (toNat_inj e)

/-- The names of the fields. -/
def fieldNames : List String :=
  ["driver", "name", "nGramSize", "source", "output", "alphabet", "pad", "wrap", "nGramOrder", "separators", "startSymbol", "endSymbol"]

theorem fieldNames_utf8 : ∀ name ∈ fieldNames, name.toUTF8.toList = utf8 name.toList := by decide +kernel

theorem isField_utf8 {name : String} (h : name ∈ fieldNames) (k : List Char) : isField name (utf8 k) = decide (SameName k name) :=
  isField_of (fieldNames_utf8 name h) k

theorem fieldNames_differ : ∀ a ∈ fieldNames, ∀ b ∈ fieldNames, a ≠ b →
    (runesOf a.toUTF8.toList).map foldRune ≠ (runesOf b.toUTF8.toList).map foldRune := by decide +kernel

theorem isField_other {a b : String} (ha : a ∈ fieldNames) (hb : b ∈ fieldNames) (hab : a ≠ b) {k : Bytes} (h : isField a k = true) :
    isField b k = false := by
  unfold isField at *
  simp only [beq_iff_eq, beq_eq_false_iff_ne, ne_eq] at *
  exact fun e => fieldNames_differ a ha b hb hab (h.symm.trans e)

/-! ### one field of the struct -/

/-- Storing what belongs to one field. -/
def storeOne {α : Type} (name : String) (st : α → Value → Option α) (a : α) (kv : Bytes × Value) : Option α :=
  if isField name kv.1 then st a kv.2 else some a

theorem one_hit {α : Type} {name : String} {st : α → Value → Option α} {a : α} {kv : Bytes × Value} (h : isField name kv.1 = true) :
    storeOne name st a kv = st a kv.2 := if_pos h

theorem one_miss {α : Type} {name : String} {st : α → Value → Option α} {a : α} {kv : Bytes × Value} (h : isField name kv.1 = false) :
    storeOne name st a kv = some a := if_neg (by simp [h])

/-- Storing one member is storing it in each field. -/
theorem storeField_some {d d' : Description} {kv : Bytes × Value} :
    storeField d kv = some d' ↔ storeOne "driver" storeText d.driver kv = some d'.driver ∧ storeOne "name" storeText d.name kv = some d'.name ∧
      storeOne "nGramSize" storeInt d.nGramSize kv = some d'.nGramSize ∧ storeOne "source" storeText d.source kv = some d'.source ∧
      storeOne "output" storeText d.output kv = some d'.output ∧ storeOne "alphabet" (fun _ => storeTexts) d.alphabet kv = some d'.alphabet ∧
      storeOne "pad" storeText d.pad kv = some d'.pad ∧ storeOne "wrap" storePair d.wrap kv = some d'.wrap ∧ d'.basePath = d.basePath := by
  obtain ⟨a1, a2, a3, a4, a5, a6, a7, a8, a9⟩ := d
  obtain ⟨b1, b2, b3, b4, b5, b6, b7, b8, b9⟩ := d'
  dsimp only
  have other : ∀ {a : String}, a ∈ fieldNames → isField a kv.1 = true → ∀ b ∈ fieldNames, a ≠ b → isField b kv.1 = false :=
    fun ha h b hb hab => isField_other ha hb hab h
  unfold storeField
  dsimp only
  by_cases h : isField "driver" kv.1 = true
  · have o := other (by decide) h
    rw [if_pos h, one_hit h, one_miss (o "name" (by decide) (by decide)),
      one_miss (o "nGramSize" (by decide) (by decide)), one_miss (o "source" (by decide) (by decide)),
      one_miss (o "output" (by decide) (by decide)), one_miss (o "alphabet" (by decide) (by decide)),
      one_miss (o "pad" (by decide) (by decide)), one_miss (o "wrap" (by decide) (by decide)), Option.map_eq_some_iff]
    simp only [Option.some.injEq]
    constructor
    · rintro ⟨x, hx, e⟩; cases e; exact ⟨hx, rfl, rfl, rfl, rfl, rfl, rfl, rfl, rfl⟩
    · rintro ⟨hx, rfl, rfl, rfl, rfl, rfl, rfl, rfl, rfl⟩; exact ⟨_, hx, rfl⟩
  rw [if_neg h]
  rw [Bool.not_eq_true] at h
  have n0 := h; clear h
  by_cases h : isField "name" kv.1 = true
  · have o := other (by decide) h
    rw [if_pos h, one_miss (o "driver" (by decide) (by decide)), one_hit h,
      one_miss (o "nGramSize" (by decide) (by decide)), one_miss (o "source" (by decide) (by decide)),
      one_miss (o "output" (by decide) (by decide)), one_miss (o "alphabet" (by decide) (by decide)),
      one_miss (o "pad" (by decide) (by decide)), one_miss (o "wrap" (by decide) (by decide)), Option.map_eq_some_iff]
    simp only [Option.some.injEq]
    constructor
    · rintro ⟨x, hx, e⟩; cases e; exact ⟨rfl, hx, rfl, rfl, rfl, rfl, rfl, rfl, rfl⟩
    · rintro ⟨rfl, hx, rfl, rfl, rfl, rfl, rfl, rfl, rfl⟩; exact ⟨_, hx, rfl⟩
  rw [if_neg h]
  rw [Bool.not_eq_true] at h
  have n1 := h; clear h
  by_cases h : isField "nGramSize" kv.1 = true
  · have o := other (by decide) h
    rw [if_pos h, one_miss (o "driver" (by decide) (by decide)), one_miss (o "name" (by decide) (by decide)),
      one_hit h, one_miss (o "source" (by decide) (by decide)),
      one_miss (o "output" (by decide) (by decide)), one_miss (o "alphabet" (by decide) (by decide)),
      one_miss (o "pad" (by decide) (by decide)), one_miss (o "wrap" (by decide) (by decide)), Option.map_eq_some_iff]
    simp only [Option.some.injEq]
    constructor
    · rintro ⟨x, hx, e⟩; cases e; exact ⟨rfl, rfl, hx, rfl, rfl, rfl, rfl, rfl, rfl⟩
    · rintro ⟨rfl, rfl, hx, rfl, rfl, rfl, rfl, rfl, rfl⟩; exact ⟨_, hx, rfl⟩
  rw [if_neg h]
  rw [Bool.not_eq_true] at h
  have n2 := h; clear h
  by_cases h : isField "source" kv.1 = true
  · have o := other (by decide) h
    rw [if_pos h, one_miss (o "driver" (by decide) (by decide)), one_miss (o "name" (by decide) (by decide)),
      one_miss (o "nGramSize" (by decide) (by decide)), one_hit h,
      one_miss (o "output" (by decide) (by decide)), one_miss (o "alphabet" (by decide) (by decide)),
      one_miss (o "pad" (by decide) (by decide)), one_miss (o "wrap" (by decide) (by decide)), Option.map_eq_some_iff]
    simp only [Option.some.injEq]
    constructor
    · rintro ⟨x, hx, e⟩; cases e; exact ⟨rfl, rfl, rfl, hx, rfl, rfl, rfl, rfl, rfl⟩
    · rintro ⟨rfl, rfl, rfl, hx, rfl, rfl, rfl, rfl, rfl⟩; exact ⟨_, hx, rfl⟩
  rw [if_neg h]
  rw [Bool.not_eq_true] at h
  have n3 := h; clear h
  by_cases h : isField "output" kv.1 = true
  · have o := other (by decide) h
    rw [if_pos h, one_miss (o "driver" (by decide) (by decide)), one_miss (o "name" (by decide) (by decide)),
      one_miss (o "nGramSize" (by decide) (by decide)), one_miss (o "source" (by decide) (by decide)),
      one_hit h, one_miss (o "alphabet" (by decide) (by decide)),
      one_miss (o "pad" (by decide) (by decide)), one_miss (o "wrap" (by decide) (by decide)), Option.map_eq_some_iff]
    simp only [Option.some.injEq]
    constructor
    · rintro ⟨x, hx, e⟩; cases e; exact ⟨rfl, rfl, rfl, rfl, hx, rfl, rfl, rfl, rfl⟩
    · rintro ⟨rfl, rfl, rfl, rfl, hx, rfl, rfl, rfl, rfl⟩; exact ⟨_, hx, rfl⟩
  rw [if_neg h]
  rw [Bool.not_eq_true] at h
  have n4 := h; clear h
  by_cases h : isField "alphabet" kv.1 = true
  · have o := other (by decide) h
    rw [if_pos h, one_miss (o "driver" (by decide) (by decide)), one_miss (o "name" (by decide) (by decide)),
      one_miss (o "nGramSize" (by decide) (by decide)), one_miss (o "source" (by decide) (by decide)),
      one_miss (o "output" (by decide) (by decide)), one_hit h,
      one_miss (o "pad" (by decide) (by decide)), one_miss (o "wrap" (by decide) (by decide)), Option.map_eq_some_iff]
    simp only [Option.some.injEq]
    constructor
    · rintro ⟨x, hx, e⟩; cases e; exact ⟨rfl, rfl, rfl, rfl, rfl, hx, rfl, rfl, rfl⟩
    · rintro ⟨rfl, rfl, rfl, rfl, rfl, hx, rfl, rfl, rfl⟩; exact ⟨_, hx, rfl⟩
  rw [if_neg h]
  rw [Bool.not_eq_true] at h
  have n5 := h; clear h
  by_cases h : isField "pad" kv.1 = true
  · have o := other (by decide) h
    rw [if_pos h, one_miss (o "driver" (by decide) (by decide)), one_miss (o "name" (by decide) (by decide)),
      one_miss (o "nGramSize" (by decide) (by decide)), one_miss (o "source" (by decide) (by decide)),
      one_miss (o "output" (by decide) (by decide)), one_miss (o "alphabet" (by decide) (by decide)),
      one_hit h, one_miss (o "wrap" (by decide) (by decide)), Option.map_eq_some_iff]
    simp only [Option.some.injEq]
    constructor
    · rintro ⟨x, hx, e⟩; cases e; exact ⟨rfl, rfl, rfl, rfl, rfl, rfl, hx, rfl, rfl⟩
    · rintro ⟨rfl, rfl, rfl, rfl, rfl, rfl, hx, rfl, rfl⟩; exact ⟨_, hx, rfl⟩
  rw [if_neg h]
  rw [Bool.not_eq_true] at h
  have n6 := h; clear h
  by_cases h : isField "wrap" kv.1 = true
  · have o := other (by decide) h
    rw [if_pos h, one_miss (o "driver" (by decide) (by decide)), one_miss (o "name" (by decide) (by decide)),
      one_miss (o "nGramSize" (by decide) (by decide)), one_miss (o "source" (by decide) (by decide)),
      one_miss (o "output" (by decide) (by decide)), one_miss (o "alphabet" (by decide) (by decide)),
      one_miss (o "pad" (by decide) (by decide)), one_hit h, Option.map_eq_some_iff]
    simp only [Option.some.injEq]
    constructor
    · rintro ⟨x, hx, e⟩; cases e; exact ⟨rfl, rfl, rfl, rfl, rfl, rfl, rfl, hx, rfl⟩
    · rintro ⟨rfl, rfl, rfl, rfl, rfl, rfl, rfl, hx, rfl⟩; exact ⟨_, hx, rfl⟩
  rw [if_neg h]
  rw [Bool.not_eq_true] at h
  have n7 := h; clear h
  rw [one_miss n0, one_miss n1, one_miss n2, one_miss n3, one_miss n4, one_miss n5, one_miss n6, one_miss n7]
  simp only [Option.some.injEq]
  constructor
  · intro e; cases e; exact ⟨rfl, rfl, rfl, rfl, rfl, rfl, rfl, rfl, rfl⟩
  · rintro ⟨rfl, rfl, rfl, rfl, rfl, rfl, rfl, rfl, rfl⟩; rfl

/-- The same for the description of a model. -/
theorem storeModelField_some {d d' : ModelConfig} {kv : Bytes × Value} :
    storeModelField d kv = some d' ↔ storeOne "name" storeText d.name kv = some d'.name ∧
      storeOne "nGramOrder" storeUint8 d.nGramOrder kv = some d'.nGramOrder ∧ storeOne "source" storeText d.source kv = some d'.source ∧
      storeOne "output" storeText d.output kv = some d'.output ∧ storeOne "alphabet" (fun _ => storeTexts) d.alphabet kv = some d'.alphabet ∧
      storeOne "separators" (fun _ => storeTexts) d.separators kv = some d'.separators ∧
      storeOne "startSymbol" storeText d.startSymbol kv = some d'.startSymbol ∧ storeOne "endSymbol" storeText d.endSymbol kv = some d'.endSymbol ∧
      d'.basePath = d.basePath := by
  obtain ⟨a1, a2, a3, a4, a5, a6, a7, a8, a9⟩ := d
  obtain ⟨b1, b2, b3, b4, b5, b6, b7, b8, b9⟩ := d'
  dsimp only
  have other : ∀ {a : String}, a ∈ fieldNames → isField a kv.1 = true → ∀ b ∈ fieldNames, a ≠ b → isField b kv.1 = false :=
    fun ha h b hb hab => isField_other ha hb hab h
  unfold storeModelField
  dsimp only
  by_cases h : isField "name" kv.1 = true
  · have o := other (by decide) h
    rw [if_pos h, one_hit h, one_miss (o "nGramOrder" (by decide) (by decide)),
      one_miss (o "source" (by decide) (by decide)), one_miss (o "output" (by decide) (by decide)),
      one_miss (o "alphabet" (by decide) (by decide)), one_miss (o "separators" (by decide) (by decide)),
      one_miss (o "startSymbol" (by decide) (by decide)), one_miss (o "endSymbol" (by decide) (by decide)), Option.map_eq_some_iff]
    simp only [Option.some.injEq]
    constructor
    · rintro ⟨x, hx, e⟩; cases e; exact ⟨hx, rfl, rfl, rfl, rfl, rfl, rfl, rfl, rfl⟩
    · rintro ⟨hx, rfl, rfl, rfl, rfl, rfl, rfl, rfl, rfl⟩; exact ⟨_, hx, rfl⟩
  rw [if_neg h]
  rw [Bool.not_eq_true] at h
  have n0 := h; clear h
  by_cases h : isField "nGramOrder" kv.1 = true
  · have o := other (by decide) h
    rw [if_pos h, one_miss (o "name" (by decide) (by decide)), one_hit h,
      one_miss (o "source" (by decide) (by decide)), one_miss (o "output" (by decide) (by decide)),
      one_miss (o "alphabet" (by decide) (by decide)), one_miss (o "separators" (by decide) (by decide)),
      one_miss (o "startSymbol" (by decide) (by decide)), one_miss (o "endSymbol" (by decide) (by decide)), Option.map_eq_some_iff]
    simp only [Option.some.injEq]
    constructor
    · rintro ⟨x, hx, e⟩; cases e; exact ⟨rfl, hx, rfl, rfl, rfl, rfl, rfl, rfl, rfl⟩
    · rintro ⟨rfl, hx, rfl, rfl, rfl, rfl, rfl, rfl, rfl⟩; exact ⟨_, hx, rfl⟩
  rw [if_neg h]
  rw [Bool.not_eq_true] at h
  have n1 := h; clear h
  by_cases h : isField "source" kv.1 = true
  · have o := other (by decide) h
    rw [if_pos h, one_miss (o "name" (by decide) (by decide)), one_miss (o "nGramOrder" (by decide) (by decide)),
      one_hit h, one_miss (o "output" (by decide) (by decide)),
      one_miss (o "alphabet" (by decide) (by decide)), one_miss (o "separators" (by decide) (by decide)),
      one_miss (o "startSymbol" (by decide) (by decide)), one_miss (o "endSymbol" (by decide) (by decide)), Option.map_eq_some_iff]
    simp only [Option.some.injEq]
    constructor
    · rintro ⟨x, hx, e⟩; cases e; exact ⟨rfl, rfl, hx, rfl, rfl, rfl, rfl, rfl, rfl⟩
    · rintro ⟨rfl, rfl, hx, rfl, rfl, rfl, rfl, rfl, rfl⟩; exact ⟨_, hx, rfl⟩
  rw [if_neg h]
  rw [Bool.not_eq_true] at h
  have n2 := h; clear h
  by_cases h : isField "output" kv.1 = true
  · have o := other (by decide) h
    rw [if_pos h, one_miss (o "name" (by decide) (by decide)), one_miss (o "nGramOrder" (by decide) (by decide)),
      one_miss (o "source" (by decide) (by decide)), one_hit h,
      one_miss (o "alphabet" (by decide) (by decide)), one_miss (o "separators" (by decide) (by decide)),
      one_miss (o "startSymbol" (by decide) (by decide)), one_miss (o "endSymbol" (by decide) (by decide)), Option.map_eq_some_iff]
    simp only [Option.some.injEq]
    constructor
    · rintro ⟨x, hx, e⟩; cases e; exact ⟨rfl, rfl, rfl, hx, rfl, rfl, rfl, rfl, rfl⟩
    · rintro ⟨rfl, rfl, rfl, hx, rfl, rfl, rfl, rfl, rfl⟩; exact ⟨_, hx, rfl⟩
  rw [if_neg h]
  rw [Bool.not_eq_true] at h
  have n3 := h; clear h
  by_cases h : isField "alphabet" kv.1 = true
  · have o := other (by decide) h
    rw [if_pos h, one_miss (o "name" (by decide) (by decide)), one_miss (o "nGramOrder" (by decide) (by decide)),
      one_miss (o "source" (by decide) (by decide)), one_miss (o "output" (by decide) (by decide)),
      one_hit h, one_miss (o "separators" (by decide) (by decide)),
      one_miss (o "startSymbol" (by decide) (by decide)), one_miss (o "endSymbol" (by decide) (by decide)), Option.map_eq_some_iff]
    simp only [Option.some.injEq]
    constructor
    · rintro ⟨x, hx, e⟩; cases e; exact ⟨rfl, rfl, rfl, rfl, hx, rfl, rfl, rfl, rfl⟩
    · rintro ⟨rfl, rfl, rfl, rfl, hx, rfl, rfl, rfl, rfl⟩; exact ⟨_, hx, rfl⟩
  rw [if_neg h]
  rw [Bool.not_eq_true] at h
  have n4 := h; clear h
  by_cases h : isField "separators" kv.1 = true
  · have o := other (by decide) h
    rw [if_pos h, one_miss (o "name" (by decide) (by decide)), one_miss (o "nGramOrder" (by decide) (by decide)),
      one_miss (o "source" (by decide) (by decide)), one_miss (o "output" (by decide) (by decide)),
      one_miss (o "alphabet" (by decide) (by decide)), one_hit h,
      one_miss (o "startSymbol" (by decide) (by decide)), one_miss (o "endSymbol" (by decide) (by decide)), Option.map_eq_some_iff]
    simp only [Option.some.injEq]
    constructor
    · rintro ⟨x, hx, e⟩; cases e; exact ⟨rfl, rfl, rfl, rfl, rfl, hx, rfl, rfl, rfl⟩
    · rintro ⟨rfl, rfl, rfl, rfl, rfl, hx, rfl, rfl, rfl⟩; exact ⟨_, hx, rfl⟩
  rw [if_neg h]
  rw [Bool.not_eq_true] at h
  have n5 := h; clear h
  by_cases h : isField "startSymbol" kv.1 = true
  · have o := other (by decide) h
    rw [if_pos h, one_miss (o "name" (by decide) (by decide)), one_miss (o "nGramOrder" (by decide) (by decide)),
      one_miss (o "source" (by decide) (by decide)), one_miss (o "output" (by decide) (by decide)),
      one_miss (o "alphabet" (by decide) (by decide)), one_miss (o "separators" (by decide) (by decide)),
      one_hit h, one_miss (o "endSymbol" (by decide) (by decide)), Option.map_eq_some_iff]
    simp only [Option.some.injEq]
    constructor
    · rintro ⟨x, hx, e⟩; cases e; exact ⟨rfl, rfl, rfl, rfl, rfl, rfl, hx, rfl, rfl⟩
    · rintro ⟨rfl, rfl, rfl, rfl, rfl, rfl, hx, rfl, rfl⟩; exact ⟨_, hx, rfl⟩
  rw [if_neg h]
  rw [Bool.not_eq_true] at h
  have n6 := h; clear h
  by_cases h : isField "endSymbol" kv.1 = true
  · have o := other (by decide) h
    rw [if_pos h, one_miss (o "name" (by decide) (by decide)), one_miss (o "nGramOrder" (by decide) (by decide)),
      one_miss (o "source" (by decide) (by decide)), one_miss (o "output" (by decide) (by decide)),
      one_miss (o "alphabet" (by decide) (by decide)), one_miss (o "separators" (by decide) (by decide)),
      one_miss (o "startSymbol" (by decide) (by decide)), one_hit h, Option.map_eq_some_iff]
    simp only [Option.some.injEq]
    constructor
    · rintro ⟨x, hx, e⟩; cases e; exact ⟨rfl, rfl, rfl, rfl, rfl, rfl, rfl, hx, rfl⟩
    · rintro ⟨rfl, rfl, rfl, rfl, rfl, rfl, rfl, hx, rfl⟩; exact ⟨_, hx, rfl⟩
  rw [if_neg h]
  rw [Bool.not_eq_true] at h
  have n7 := h; clear h
  rw [one_miss n0, one_miss n1, one_miss n2, one_miss n3, one_miss n4, one_miss n5, one_miss n6, one_miss n7]
  simp only [Option.some.injEq]
  constructor
  · intro e; cases e; exact ⟨rfl, rfl, rfl, rfl, rfl, rfl, rfl, rfl, rfl⟩
  · rintro ⟨rfl, rfl, rfl, rfl, rfl, rfl, rfl, rfl, rfl⟩; rfl

/-! ### all members -/

theorem foldlM_cons {α β : Type} (f : β → α → Option β) (b : β) (a : α) (l : List α) :
    (a :: l).foldlM f b = (f b a).bind fun b' => l.foldlM f b' := rfl

/-- Storing in order what belongs to one field. -/
def storeAll {α : Type} (name : String) (st : α → Value → Option α) (a : α) (l : List (Bytes × Value)) : Option α :=
  l.foldlM (storeOne name st) a

theorem all_cons {α : Type} {name : String} {st : α → Value → Option α} {a x y : α} {kv : Bytes × Value} {l : List (Bytes × Value)}
    (h : storeOne name st a kv = some x) (h' : storeAll name st x l = some y) : storeAll name st a (kv :: l) = some y := by
  rw [storeAll, foldlM_cons, h]; exact h'

theorem all_split {α : Type} {name : String} {st : α → Value → Option α} {a y : α} {kv : Bytes × Value} {l : List (Bytes × Value)}
    (h : storeAll name st a (kv :: l) = some y) : ∃ x, storeOne name st a kv = some x ∧ storeAll name st x l = some y := by
  rw [storeAll, foldlM_cons, Option.bind_eq_some_iff] at h; exact h

theorem storeFields_some {l : List (Bytes × Value)} {d d' : Description} :
    l.foldlM storeField d = some d' ↔ storeAll "driver" storeText d.driver l = some d'.driver ∧ storeAll "name" storeText d.name l = some d'.name ∧
      storeAll "nGramSize" storeInt d.nGramSize l = some d'.nGramSize ∧ storeAll "source" storeText d.source l = some d'.source ∧
      storeAll "output" storeText d.output l = some d'.output ∧ storeAll "alphabet" (fun _ => storeTexts) d.alphabet l = some d'.alphabet ∧
      storeAll "pad" storeText d.pad l = some d'.pad ∧ storeAll "wrap" storePair d.wrap l = some d'.wrap ∧ d'.basePath = d.basePath := by
  induction l generalizing d with
  | nil =>
    obtain ⟨a1, a2, a3, a4, a5, a6, a7, a8, a9⟩ := d
    obtain ⟨b1, b2, b3, b4, b5, b6, b7, b8, b9⟩ := d'
    simp only [storeAll, List.foldlM_nil]
    constructor
    · intro e; cases e; exact ⟨rfl, rfl, rfl, rfl, rfl, rfl, rfl, rfl, rfl⟩
    · rintro ⟨e1, e2, e3, e4, e5, e6, e7, e8, e9⟩
      cases e1; cases e2; cases e3; cases e4; cases e5; cases e6; cases e7; cases e8; cases e9; rfl
  | cons kv l ih =>
    rw [foldlM_cons, Option.bind_eq_some_iff]
    constructor
    · rintro ⟨d1, h1, h2⟩
      obtain ⟨a1, a2, a3, a4, a5, a6, a7, a8, a9⟩ := storeField_some.1 h1
      obtain ⟨b1, b2, b3, b4, b5, b6, b7, b8, b9⟩ := ih.1 h2
      exact ⟨all_cons a1 b1, all_cons a2 b2, all_cons a3 b3, all_cons a4 b4, all_cons a5 b5, all_cons a6 b6, all_cons a7 b7, all_cons a8 b8,
        b9.trans a9⟩
    · rintro ⟨h1, h2, h3, h4, h5, h6, h7, h8, h9⟩
      obtain ⟨x1, a1, b1⟩ := all_split h1
      obtain ⟨x2, a2, b2⟩ := all_split h2
      obtain ⟨x3, a3, b3⟩ := all_split h3
      obtain ⟨x4, a4, b4⟩ := all_split h4
      obtain ⟨x5, a5, b5⟩ := all_split h5
      obtain ⟨x6, a6, b6⟩ := all_split h6
      obtain ⟨x7, a7, b7⟩ := all_split h7
      obtain ⟨x8, a8, b8⟩ := all_split h8
      exact ⟨⟨x1, x2, x3, x4, x5, x6, x7, x8, d.basePath⟩, storeField_some.2 ⟨a1, a2, a3, a4, a5, a6, a7, a8, rfl⟩,
        ih.2 ⟨b1, b2, b3, b4, b5, b6, b7, b8, h9⟩⟩

theorem storeModelFields_some {l : List (Bytes × Value)} {d d' : ModelConfig} :
    l.foldlM storeModelField d = some d' ↔ storeAll "name" storeText d.name l = some d'.name ∧
      storeAll "nGramOrder" storeUint8 d.nGramOrder l = some d'.nGramOrder ∧ storeAll "source" storeText d.source l = some d'.source ∧
      storeAll "output" storeText d.output l = some d'.output ∧ storeAll "alphabet" (fun _ => storeTexts) d.alphabet l = some d'.alphabet ∧
      storeAll "separators" (fun _ => storeTexts) d.separators l = some d'.separators ∧
      storeAll "startSymbol" storeText d.startSymbol l = some d'.startSymbol ∧ storeAll "endSymbol" storeText d.endSymbol l = some d'.endSymbol ∧
      d'.basePath = d.basePath := by
  induction l generalizing d with
  | nil =>
    obtain ⟨a1, a2, a3, a4, a5, a6, a7, a8, a9⟩ := d
    obtain ⟨b1, b2, b3, b4, b5, b6, b7, b8, b9⟩ := d'
    simp only [storeAll, List.foldlM_nil]
    constructor
    · intro e; cases e; exact ⟨rfl, rfl, rfl, rfl, rfl, rfl, rfl, rfl, rfl⟩
    · rintro ⟨e1, e2, e3, e4, e5, e6, e7, e8, e9⟩
      cases e1; cases e2; cases e3; cases e4; cases e5; cases e6; cases e7; cases e8; cases e9; rfl
  | cons kv l ih =>
    rw [foldlM_cons, Option.bind_eq_some_iff]
    constructor
    · rintro ⟨d1, h1, h2⟩
      obtain ⟨a1, a2, a3, a4, a5, a6, a7, a8, a9⟩ := storeModelField_some.1 h1
      obtain ⟨b1, b2, b3, b4, b5, b6, b7, b8, b9⟩ := ih.1 h2
      exact ⟨all_cons a1 b1, all_cons a2 b2, all_cons a3 b3, all_cons a4 b4, all_cons a5 b5, all_cons a6 b6, all_cons a7 b7, all_cons a8 b8,
        b9.trans a9⟩
    · rintro ⟨h1, h2, h3, h4, h5, h6, h7, h8, h9⟩
      obtain ⟨x1, a1, b1⟩ := all_split h1
      obtain ⟨x2, a2, b2⟩ := all_split h2
      obtain ⟨x3, a3, b3⟩ := all_split h3
      obtain ⟨x4, a4, b4⟩ := all_split h4
      obtain ⟨x5, a5, b5⟩ := all_split h5
      obtain ⟨x6, a6, b6⟩ := all_split h6
      obtain ⟨x7, a7, b7⟩ := all_split h7
      obtain ⟨x8, a8, b8⟩ := all_split h8
      exact ⟨⟨x1, x2, x3, x4, x5, x6, x7, x8, d.basePath⟩, storeModelField_some.2 ⟨a1, a2, a3, a4, a5, a6, a7, a8, rfl⟩,
        ih.2 ⟨b1, b2, b3, b4, b5, b6, b7, b8, h9⟩⟩

/-! ### the values of one field -/

theorem named_cons (k : List Char) (v : JVal) (l : List (List Char × JVal)) (name : String) :
    named ((k, v) :: l) name = if SameName k name then v :: named l name else named l name := by
  unfold named
  by_cases h : SameName k name
  · rw [if_pos h, List.filter_cons_of_pos (by simpa using h)]; rfl
  · rw [if_neg h, List.filter_cons_of_neg (by simpa using h)]

theorem given_cons (k : List Char) (v : JVal) (l : List (List Char × JVal)) (name : String) :
    given ((k, v) :: l) name = if SameName k name ∧ v.given = true then v :: given l name else given l name := by
  unfold given
  rw [named_cons]
  by_cases h : SameName k name
  · rw [if_pos h]
    by_cases h' : v.given = true
    · rw [if_pos ⟨h, h'⟩, List.filter_cons_of_pos h']
    · rw [if_neg (fun x => h' x.2), List.filter_cons_of_neg h']
  · rw [if_neg h, if_neg (fun x => h x.1)]

/-- A field whose values are the given ones. -/
theorem all_given {α β : Type} {name : String} (hn : name ∈ fieldNames) {st : β → Value → Option β} {enc : α → β} {R : JVal → α → Prop}
    (hnull : ∀ b, st b .null = some b) (hst : ∀ b v a, v.given = true → R v a → st b (val v) = some (enc a)) :
    ∀ (l : List (List Char × JVal)) (zero a : α), Field (given l name) R zero a → storeAll name st (enc zero) (membs l) = some (enc a) := by
  intro l
  induction l with
  | nil => rintro zero a ⟨-, h⟩; rw [membs]; exact congrArg (fun x => some (enc x)) (show zero = a from h.symm)
  | cons kv l ih =>
    obtain ⟨k, v⟩ := kv
    rintro zero a ⟨h1, h2⟩
    rw [membs]
    rw [given_cons] at h1 h2
    by_cases h : SameName k name
    · have hf : isField name (utf8 k) = true := by rw [isField_utf8 hn]; exact decide_eq_true h
      by_cases h' : v.given = true
      · rw [if_pos ⟨h, h'⟩] at h1 h2
        obtain ⟨x, hx⟩ := h1 v List.mem_cons_self
        have : storeOne name st (enc zero) (utf8 k, val v) = some (enc x) := by rw [one_hit hf]; exact hst _ v x h' hx
        cases hg : (given l name).getLast? with
        | none =>
          rw [List.getLast?_eq_none_iff] at hg
          rw [hg] at h2
          have hxa : st (enc zero) (val v) = some (enc a) := hst _ v a h' h2
          exact all_cons (x := enc a) (by rw [one_hit hf]; exact hxa) (ih a a ⟨by rw [hg]; simp, by rw [hg]; rfl⟩)
        | some w =>
          rw [List.getLast?_cons, hg] at h2
          exact all_cons this (ih x a ⟨fun u hu => h1 u (List.mem_cons_of_mem _ hu), by rw [hg]; exact h2⟩)
      · rw [if_neg (fun x => h' x.2)] at h1 h2
        have hv : v = .null := by cases v <;> simp [JVal.given] at h' ⊢
        subst hv
        exact all_cons (x := enc zero) (by rw [one_hit hf]; exact hnull _) (ih zero a ⟨h1, h2⟩)
    · rw [if_neg (fun x => h x.1)] at h1 h2
      have hf : isField name (utf8 k) = false := by rw [isField_utf8 hn]; exact decide_eq_false h
      exact all_cons (one_miss hf) (ih zero a ⟨h1, h2⟩)

/-- A field whose values are all those with its name. -/
theorem all_named {α β : Type} {name : String} (hn : name ∈ fieldNames) {st : β → Value → Option β} {enc : α → β} {R : JVal → α → Prop}
    (hst : ∀ b v a, R v a → st b (val v) = some (enc a)) :
    ∀ (l : List (List Char × JVal)) (zero a : α), Field (named l name) R zero a → storeAll name st (enc zero) (membs l) = some (enc a) := by
  intro l
  induction l with
  | nil => rintro zero a ⟨-, h⟩; rw [membs]; exact congrArg (fun x => some (enc x)) (show zero = a from h.symm)
  | cons kv l ih =>
    obtain ⟨k, v⟩ := kv
    rintro zero a ⟨h1, h2⟩
    rw [membs]
    rw [named_cons] at h1 h2
    by_cases h : SameName k name
    · have hf : isField name (utf8 k) = true := by rw [isField_utf8 hn]; exact decide_eq_true h
      rw [if_pos h] at h1 h2
      obtain ⟨x, hx⟩ := h1 v List.mem_cons_self
      cases hg : (named l name).getLast? with
      | none =>
        rw [List.getLast?_eq_none_iff] at hg
        rw [hg] at h2
        exact all_cons (x := enc a) (by rw [one_hit hf]; exact hst _ v a h2) (ih a a ⟨by rw [hg]; simp, by rw [hg]; rfl⟩)
      | some w =>
        rw [List.getLast?_cons, hg] at h2
        exact all_cons (x := enc x) (by rw [one_hit hf]; exact hst _ v x hx)
          (ih x a ⟨fun u hu => h1 u (List.mem_cons_of_mem _ hu), by rw [hg]; exact h2⟩)
    · rw [if_neg h] at h1 h2
      have hf : isField name (utf8 k) = false := by rw [isField_utf8 hn]; exact decide_eq_false h
      exact all_cons (one_miss hf) (ih zero a ⟨h1, h2⟩)

/-! ### the types of the fields -/

theorem storeText_of {b : Bytes} {v : JVal} {s : List Char} (h : TextValue v s) : storeText b (val v) = some (utf8 s) := by
  rw [show v = .str s from h]; rfl

theorem storeInt_of {b : Int} {v : JVal} {n : Int} (h : IntValue v n) : storeInt b (val v) = some n := by
  obtain ⟨t, rfl, h⟩ := h
  show (parseInt (utf8 t)).toOption = some n
  rw [parseInt_ok.2 h]; rfl

theorem mapM_vals {R : JVal → List Char → Prop} (hR : ∀ v s, R v s → storeText [] (val v) = some (utf8 s)) :
    ∀ {vs : List JVal} {l : List (List Char)}, List.Forall₂ R vs l → (vals vs).mapM (storeText []) = some (l.map utf8) := by
  intro vs l h
  induction h with
  | nil => rfl
  | @cons v s vs l h _ ih =>
    rw [vals, List.mapM_cons, hR v s h, ih]; rfl

theorem storeTexts_of {v : JVal} {l : List (List Char)} (h : TextsValue v l) : storeTexts (val v) = some (l.map utf8) := by
  rcases h with ⟨rfl, rfl⟩ | ⟨vs, rfl, h⟩
  · rfl
  · refine mapM_vals ?_ h
    rintro v s (h | ⟨rfl, rfl⟩)
    · exact storeText_of h
    · rfl

theorem storePair_of {b : Bytes × Bytes} {v : JVal} {p : List Char × List Char} (h : PairValue v p) :
    storePair b (val v) = some (utf8 p.1, utf8 p.2) := by
  rcases h with ⟨rfl, rfl⟩ | ⟨s, rfl, rfl⟩ | ⟨s, t, l, rfl, rfl⟩
  · rfl
  · rfl
  · rfl

end Verif.Conf
