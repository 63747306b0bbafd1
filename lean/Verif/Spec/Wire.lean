import Verif.Spec.Text
import Verif.Spec.Metric
import Mathlib.Data.Rat.Defs
/-
Independent specification of what a client of the HTTP API writes and reads: percent-encoding of texts in a URL (RFC 3986), forms
(application/x-www-form-urlencoded) and JSON texts (RFC 8259). Does not use the model (bytes are `List UInt8`).
-/
namespace Verif.Spec

/-- `c` is a hexadecimal digit and `v` is its value. -/
def HexDigit (c : UInt8) (v : Nat) : Prop :=
  (v < 10 ∧ c.toNat = 48 + v) ∨ (10 ≤ v ∧ v < 16 ∧ (c.toNat = 97 + (v - 10) ∨ c.toNat = 65 + (v - 10)))

/-- Letters, digits, '-', '.', '_', '~'. -/
def Unreserved (c : UInt8) : Prop :=
  (48 ≤ c.toNat ∧ c.toNat ≤ 57) ∨ (65 ≤ c.toNat ∧ c.toNat ≤ 90) ∨ (97 ≤ c.toNat ∧ c.toNat ≤ 122) ∨
    c.toNat = 45 ∨ c.toNat = 46 ∨ c.toNat = 95 ∨ c.toNat = 126

/-- `t` is a percent-encoding of `s`: every byte is written as "%XX", or as itself if it is unreserved; in a form (`form`) a
space may be written as '+'. -/
inductive PctEncoded (form : Bool) : List UInt8 → List UInt8 → Prop
  | nil : PctEncoded form [] []
  | lit {c s t} : Unreserved c → PctEncoded form s t → PctEncoded form (c :: s) (c :: t)
  | pct {c a b x y s t} : HexDigit a x → HexDigit b y → c.toNat = 16 * x + y → PctEncoded form s t →
      PctEncoded form (c :: s) (37 :: a :: b :: t)
  | plus {s t} : form = true → PctEncoded form s t → PctEncoded form (32 :: s) (43 :: t)

/-- `raw` is the encoding "k1=v1&k2=v2…" of the pairs. -/
inductive FormEncoded : List (List UInt8 × List UInt8) → List UInt8 → Prop
  | nil : FormEncoded [] []
  | last {k v k' v'} : PctEncoded true k k' → PctEncoded true v v' → FormEncoded [(k, v)] (k' ++ 61 :: v')
  | cons {k v k' v' kv kvs raw} : PctEncoded true k k' → PctEncoded true v v' → FormEncoded (kv :: kvs) raw →
      FormEncoded ((k, v) :: kv :: kvs) (k' ++ 61 :: v' ++ 38 :: raw)

/-- The first value of the field in a list of pairs; "" if there is none. -/
def fieldValue (kvs : List (List UInt8 × List UInt8)) (field : List UInt8) : List UInt8 :=
  ((kvs.find? fun kv => decide (kv.1 = field)).map Prod.snd).getD []

/-- A text that can be a part of a path: not empty, without '/', and neither "." nor "..". -/
def PathSegment (s : List UInt8) : Prop := s ≠ [] ∧ 47 ∉ s ∧ s ≠ [46] ∧ s ≠ [46, 46]

/-- The target "/api/dict/query/?form" of a request. -/
def searchTarget (api : String) (dict query form : List UInt8) : List UInt8 :=
  47 :: (utf8 api.toList ++ 47 :: (dict ++ 47 :: (query ++ 47 :: 63 :: form)))

/-- The similarities a client can ask for by name (the metric "Exact" is not considered here). -/
def NamedSim (name : List UInt8) (sim : Nat → Nat → Nat → ℝ) : Prop :=
  (name = utf8 "Jaccard".toList ∧ sim = jaccardSim) ∨ (name = utf8 "Cosine".toList ∧ sim = cosineSim) ∨
  (name = utf8 "Dice".toList ∧ sim = diceSim) ∨ (name = utf8 "Overlap".toList ∧ sim = overlapSim)

/-! ### JSON -/

/-- JSON values (those without `true`, `false` and `null`); a number is kept as it is written. -/
inductive Json where
  | num (text : List Char)
  | str (s : List Char)
  | arr (l : List Json)
  | obj (l : List (List Char × Json))

/-- The value of a hexadecimal digit. -/
def hexOf (c : Char) : Option Nat :=
  if '0' ≤ c ∧ c ≤ '9' then some (c.toNat - 48)
  else if 'a' ≤ c ∧ c ≤ 'f' then some (c.toNat - 87)
  else if 'A' ≤ c ∧ c ≤ 'F' then some (c.toNat - 55)
  else none

/-- The character of a two-character escape. -/
def escapeOf (c : Char) : Option Char :=
  if c = '"' ∨ c = '\\' ∨ c = '/' then some c
  else if c = 'b' then some (Char.ofNat 8)
  else if c = 'f' then some (Char.ofNat 12)
  else if c = 'n' then some '\n'
  else if c = 'r' then some '\r'
  else if c = 't' then some '\t'
  else none

/-- The characters of a string up to the closing quote, and the rest of the text. (Escaped surrogates are not accepted.) -/
def jsonStringBody : List Char → Option (List Char × List Char)
  | [] => none
  | c :: rest =>
    if c = '"' then some ([], rest)
    else if c = '\\' then
      match rest with
      | [] => none
      | e :: rest' =>
        if e = 'u' then
          match rest' with
          | x1 :: x2 :: x3 :: x4 :: rest'' =>
            match hexOf x1, hexOf x2, hexOf x3, hexOf x4 with
            | some a, some b, some c, some d =>
              if (4096 * a + 256 * b + 16 * c + d).isValidChar then
                (jsonStringBody rest'').map fun p => (Char.ofNat (4096 * a + 256 * b + 16 * c + d) :: p.1, p.2)
              else none
            | _, _, _, _ => none
          | _ => none
        else
          match escapeOf e with
          | some x => (jsonStringBody rest').map fun p => (x :: p.1, p.2)
          | none => none
    else if c.toNat < 32 then none
    else (jsonStringBody rest).map fun p => (c :: p.1, p.2)

/-- The characters of numbers. -/
def isNumChar (c : Char) : Bool := decide ('0' ≤ c ∧ c ≤ '9') || c == '+' || c == '-' || c == '.' || c == 'e' || c == 'E'

mutual
/-- Reads a JSON value (without spaces between the tokens) from the beginning of a text; gives the value and the rest. The
number bounds the depth of the recursion. -/
def readValue : Nat → List Char → Option (Json × List Char)
  | 0, _ => none
  | n + 1, '"' :: rest => (jsonStringBody rest).map fun p => (.str p.1, p.2)
  | n + 1, '[' :: ']' :: rest => some (.arr [], rest)
  | n + 1, '[' :: rest => (readElements n rest).map fun p => (.arr p.1, p.2)
  | n + 1, '{' :: '}' :: rest => some (.obj [], rest)
  | n + 1, '{' :: rest => (readMembers n rest).map fun p => (.obj p.1, p.2)
  | _ + 1, text => if text.takeWhile isNumChar = [] then none else some (.num (text.takeWhile isNumChar), text.dropWhile isNumChar)
/-- The elements of an array, up to the closing bracket. -/
def readElements : Nat → List Char → Option (List Json × List Char)
  | 0, _ => none
  | n + 1, text =>
    match readValue n text with
    | some (v, ']' :: rest) => some ([v], rest)
    | some (v, ',' :: rest) => (readElements n rest).map fun p => (v :: p.1, p.2)
    | _ => none
/-- The members of an object, up to the closing brace. -/
def readMembers : Nat → List Char → Option (List (List Char × Json) × List Char)
  | 0, _ => none
  | n + 1, '"' :: text =>
    match jsonStringBody text with
    | some (k, ':' :: text) =>
      match readValue n text with
      | some (v, '}' :: rest) => some ([(k, v)], rest)
      | some (v, ',' :: rest) => (readMembers n rest).map fun p => ((k, v) :: p.1, p.2)
      | _ => none
    | _ => none
  | _ + 1, _ => none
end

/-- The value of a JSON text. -/
def jsonParse (text : List Char) : Option Json :=
  match readValue (text.length + 1) text with
  | some (v, []) => some v
  | _ => none

/-- The bytes are the UTF-8 encoding of a JSON text with this value. -/
def JsonBody (body : List UInt8) (v : Json) : Prop := ∃ text, body = utf8 text ∧ jsonParse text = some v

/-- The value of the answer to a search: scores (written by `numText`) and words. -/
def itemsJson (numText : ℚ → List Char) (items : List (ℚ × List Char)) : Json :=
  .arr (items.map fun it => .obj [("Score".toList, .num (numText it.1)), ("Value".toList, .str it.2)])

end Verif.Spec
