import Verif.Spec.Wire
import Verif.Spec.Http
/-
Independent specification of configuration files: JSON texts (the grammar of RFC 8259, white space between the tokens included), and
which descriptions a JSON value stands for. Does not use the model.
-/
namespace Verif.Spec

/-- JSON values; a number is kept as it is written. -/
inductive JVal where
  | null
  | bool (b : Bool)
  | num (text : List Char)
  | str (s : List Char)
  | arr (l : List JVal)
  | obj (l : List (List Char × JVal))

/-- White space. -/
def Blanks (t : List Char) : Prop := ∀ c ∈ t, c = ' ' ∨ c = '\t' ∨ c = '\r' ∨ c = '\n'

/-- A nonempty sequence of decimal digits. -/
def Digits (t : List Char) : Prop := t ≠ [] ∧ ∀ c ∈ t, '0' ≤ c ∧ c ≤ '9'

/-- The grammar of numbers: a sign, an integer without leading zeros, perhaps a fraction, perhaps an exponent. -/
def NumberText (t : List Char) : Prop :=
  ∃ sign int frac exp, t = sign ++ int ++ frac ++ exp ∧ (sign = [] ∨ sign = ['-']) ∧
    (int = ['0'] ∨ (Digits int ∧ int.head? ≠ some '0')) ∧
    (frac = [] ∨ ∃ ds, frac = '.' :: ds ∧ Digits ds) ∧
    (exp = [] ∨ ∃ e s ds, exp = e :: (s ++ ds) ∧ (e = 'e' ∨ e = 'E') ∧ (s = [] ∨ s = ['+'] ∨ s = ['-']) ∧ Digits ds)

/-- `t` is a backslash, a 'u' and four hexadecimal digits with the value `u`. -/
def HexEscape (u : Nat) (t : List Char) : Prop :=
  ∃ x1 x2 x3 x4 a b c d, t = ['\\', 'u', x1, x2, x3, x4] ∧ hexOf x1 = some a ∧ hexOf x2 = some b ∧ hexOf x3 = some c ∧
    hexOf x4 = some d ∧ u = 4096 * a + 256 * b + 16 * c + d

/-- `t` is written between quotes for the string `s`. A character beyond U+FFFF may be written as two escapes (its halves in
UTF-16); a half that is not part of such a pair stands for U+FFFD. -/
inductive StringText : List Char → List Char → Prop
  | nil : StringText [] []
  | plain {c s t} : c ≠ '"' → c ≠ '\\' → 32 ≤ c.toNat → StringText s t → StringText (c :: s) (c :: t)
  | short {e c s t} : escapeOf e = some c → StringText s t → StringText (c :: s) ('\\' :: e :: t)
  | hex {c x s t} : HexEscape c.toNat x → StringText s t → StringText (c :: s) (x ++ t)
  | pair {c u v x y s t} : HexEscape u x → HexEscape v y → 0xD800 ≤ u → u < 0xDC00 → 0xDC00 ≤ v → v < 0xE000 →
      c.toNat = 0x10000 + (u - 0xD800) * 1024 + (v - 0xDC00) → StringText s t → StringText (c :: s) (x ++ (y ++ t))
  | half {u x s t} : HexEscape u x → 0xD800 ≤ u → u < 0xE000 →
      (u < 0xDC00 → ∀ v y t', HexEscape v y → 0xDC00 ≤ v → v < 0xE000 → t ≠ y ++ t') → StringText s t →
      StringText (Char.ofNat 0xFFFD :: s) (x ++ t)

/-- What is written: a value, the elements of an array, the members of an object. -/
inductive JItem where
  | value (v : JVal)
  | elements (l : List JVal)
  | members (l : List (List Char × JVal))

/-- The grammar of JSON. -/
inductive JsonWritten : JItem → List Char → Prop
  | null : JsonWritten (.value .null) "null".toList
  | yes : JsonWritten (.value (.bool true)) "true".toList
  | no : JsonWritten (.value (.bool false)) "false".toList
  | num {t} : NumberText t → JsonWritten (.value (.num t)) t
  | str {s t} : StringText s t → JsonWritten (.value (.str s)) ('"' :: (t ++ ['"']))
  | noElements {b} : Blanks b → JsonWritten (.value (.arr [])) ('[' :: (b ++ [']']))
  | arr {l t} : JsonWritten (.elements l) t → JsonWritten (.value (.arr l)) ('[' :: (t ++ [']']))
  | noMembers {b} : Blanks b → JsonWritten (.value (.obj [])) ('{' :: (b ++ ['}']))
  | obj {l t} : JsonWritten (.members l) t → JsonWritten (.value (.obj l)) ('{' :: (t ++ ['}']))
  | element {v b t b'} : Blanks b → JsonWritten (.value v) t → Blanks b' → JsonWritten (.elements [v]) (b ++ (t ++ b'))
  | elements {v l b t b' u} : Blanks b → JsonWritten (.value v) t → Blanks b' → JsonWritten (.elements l) u →
      JsonWritten (.elements (v :: l)) (b ++ (t ++ (b' ++ ',' :: u)))
  | member {k v b kt b1 b2 t b'} : Blanks b → StringText k kt → Blanks b1 → Blanks b2 → JsonWritten (.value v) t → Blanks b' →
      JsonWritten (.members [(k, v)]) (b ++ '"' :: (kt ++ '"' :: (b1 ++ ':' :: (b2 ++ (t ++ b')))))
  | members {k v l b kt b1 b2 t b' u} : Blanks b → StringText k kt → Blanks b1 → Blanks b2 → JsonWritten (.value v) t → Blanks b' →
      JsonWritten (.members l) u →
      JsonWritten (.members ((k, v) :: l)) (b ++ '"' :: (kt ++ '"' :: (b1 ++ ':' :: (b2 ++ (t ++ (b' ++ ',' :: u))))))

/-- `text` is a JSON text with the value `v`. -/
def JsonText (v : JVal) (text : List Char) : Prop :=
  ∃ b t b', text = b ++ (t ++ b') ∧ Blanks b ∧ JsonWritten (.value v) t ∧ Blanks b'

/-! ### descriptions -/

/-- Lower case of the ASCII letters; the Kelvin sign is a 'k', the long s an 's'. -/
def foldLetter (c : Char) : Char :=
  if 'A' ≤ c ∧ c ≤ 'Z' then Char.ofNat (c.toNat + 32)
  else if c = Char.ofNat 0x17F then 's'
  else if c = Char.ofNat 0x212A then 'k'
  else c

/-- The key is the name, up to the case of the letters. -/
def SameName (key : List Char) (name : String) : Prop := key.map foldLetter = name.toList.map foldLetter

instance (key : List Char) (name : String) : Decidable (SameName key name) := inferInstanceAs (Decidable (_ = _))

/-- The values of the members with this name, in order. -/
def named (members : List (List Char × JVal)) (name : String) : List JVal :=
  (members.filter fun kv => decide (SameName kv.1 name)).map Prod.snd

/-- Not `null`. -/
def JVal.given : JVal → Bool
  | .null => false
  | _ => true

/-- The values of the members with this name that are not `null`. -/
def given (members : List (List Char × JVal)) (name : String) : List JVal := (named members name).filter JVal.given

/-- A field for which these values are given is `a` (`R v a`: the JSON value `v` is written for `a`). If there is none the field is
`zero`, if there are several the last counts; all have to be of the type. -/
def Field {α : Type} (values : List JVal) (R : JVal → α → Prop) (zero a : α) : Prop :=
  (∀ v ∈ values, ∃ x, R v x) ∧
    match values.getLast? with
    | none => a = zero
    | some v => R v a

/-- The JSON value written for a text, an integer of 64 bits, a byte, a list of texts, two texts (missing ones are empty, further ones
are not looked at). In a list of texts `null` stands for the empty text, and instead of a list for the empty list. -/
def TextValue (v : JVal) (s : List Char) : Prop := v = .str s
def IntValue (v : JVal) (n : Int) : Prop := ∃ t, v = .num t ∧ IsDecimal (utf8 t) n ∧ -2 ^ 63 ≤ n ∧ n < 2 ^ 63
def ByteValue (v : JVal) (n : Nat) : Prop := ∃ t, v = .num t ∧ IsDecimal (utf8 t) n ∧ Digits t ∧ n < 256
def TextsValue (v : JVal) (l : List (List Char)) : Prop :=
  (v = .null ∧ l = []) ∨ ∃ vs, v = .arr vs ∧ List.Forall₂ (fun v s => TextValue v s ∨ (v = .null ∧ s = [])) vs l
def PairValue (v : JVal) (p : List Char × List Char) : Prop :=
  (v = .arr [] ∧ p = ([], [])) ∨ (∃ s, v = .arr [.str s] ∧ p = (s, [])) ∨ ∃ s t l, v = .arr (.str s :: .str t :: l) ∧ p = (s, t)

/-- The description of an index. -/
structure IndexText where
  driver : List Char
  name : List Char
  nGramSize : Int
  source : List Char
  output : List Char
  alphabet : List (List Char)
  pad : List Char
  wrap : List Char × List Char

/-- The JSON object with these members describes the index. Other members are ignored. -/
structure DescribesIndex (members : List (List Char × JVal)) (d : IndexText) : Prop where
  driver : Field (given members "driver") TextValue [] d.driver
  name : Field (given members "name") TextValue [] d.name
  nGramSize : Field (given members "nGramSize") IntValue 0 d.nGramSize
  source : Field (given members "source") TextValue [] d.source
  output : Field (given members "output") TextValue [] d.output
  alphabet : Field (named members "alphabet") TextsValue [] d.alphabet
  pad : Field (given members "pad") TextValue [] d.pad
  wrap : Field (given members "wrap") PairValue ([], []) d.wrap

/-! ### which texts are accepted -/

def TextOrNull (v : JVal) : Prop := v = .null ∨ ∃ s, TextValue v s
def IntOrNull (v : JVal) : Prop := v = .null ∨ ∃ n, IntValue v n
def ByteOrNull (v : JVal) : Prop := v = .null ∨ ∃ n, ByteValue v n
def TextsOrNull (v : JVal) : Prop := v = .null ∨ ∃ l, v = .arr l ∧ ∀ x ∈ l, TextOrNull x
def PairOrNull (v : JVal) : Prop := v = .null ∨ ∃ l, v = .arr l ∧ ∀ x ∈ l.take 2, TextOrNull x

/-- The member of the description of an index is of the type of its field; members that are no field can be anything. -/
structure IndexMember (k : List Char) (v : JVal) : Prop where
  texts : ∀ name ∈ ["driver", "name", "source", "output", "pad"], SameName k name → TextOrNull v
  nGramSize : SameName k "nGramSize" → IntOrNull v
  alphabet : SameName k "alphabet" → TextsOrNull v
  wrap : SameName k "wrap" → PairOrNull v

/-- The value is a list of descriptions of indexes (`null` instead of the list or of a description is allowed). -/
def IndexList (v : JVal) : Prop :=
  v = .null ∨ ∃ l, v = .arr l ∧ ∀ e ∈ l, e = .null ∨ ∃ members, e = .obj members ∧ ∀ kv ∈ members, IndexMember kv.1 kv.2

/-- The member of the description of a model is of the type of its field. -/
structure ModelMember (k : List Char) (v : JVal) : Prop where
  texts : ∀ name ∈ ["name", "source", "output", "startSymbol", "endSymbol"], SameName k name → TextOrNull v
  nGramOrder : SameName k "nGramOrder" → ByteOrNull v
  lists : ∀ name ∈ ["alphabet", "separators"], SameName k name → TextsOrNull v

/-- The value describes a model. -/
def ModelValue (v : JVal) : Prop :=
  v = .null ∨ ∃ members, v = .obj members ∧ ∀ kv ∈ members, ModelMember kv.1 kv.2

/-- The description of a language model. -/
structure ModelText where
  name : List Char
  nGramOrder : Nat
  source : List Char
  output : List Char
  alphabet : List (List Char)
  separators : List (List Char)
  startSymbol : List Char
  endSymbol : List Char

/-- The JSON object with these members describes the model. -/
structure DescribesModel (members : List (List Char × JVal)) (d : ModelText) : Prop where
  name : Field (given members "name") TextValue [] d.name
  nGramOrder : Field (given members "nGramOrder") ByteValue 0 d.nGramOrder
  source : Field (given members "source") TextValue [] d.source
  output : Field (given members "output") TextValue [] d.output
  alphabet : Field (named members "alphabet") TextsValue [] d.alphabet
  separators : Field (named members "separators") TextsValue [] d.separators
  startSymbol : Field (given members "startSymbol") TextValue [] d.startSymbol
  endSymbol : Field (given members "endSymbol") TextValue [] d.endSymbol

end Verif.Spec
