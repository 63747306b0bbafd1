import Verif.Model.Wire
import Verif.Model.Paths
/-
Model of the reading of the two configuration files: pkg/suggest/config.go:25-35, 84-113 and pkg/lm/config.go:13-23, 64-88, with
the part of encoding/json they rest on (Go, src/encoding/json: scanner.go, decode.go, fold.go), modelled from its documented
behaviour: the whole text is checked first, then it is stored in the struct; any error makes `ReadConfigs` and `ReadConfig` fail.

Simplifications: only whether an error occurs is modelled, not which one. An array that is given twice for one field is decoded
afresh (in Go a null element of the second one keeps the element of the first). Limits of memory and of the nesting are not modelled.
-/
namespace Verif.Conf
open Verif

/-- A JSON value; a number is kept as it is written, strings are decoded. -/
inductive Value where
  | null
  | bool (b : Bool)
  | num (text : Bytes)
  | str (s : Bytes)
  | arr (l : List Value)
  | obj (l : List (Bytes × Value))

/-- `isSpace` — src/encoding/json/scanner.go. -/
def isBlank (b : UInt8) : Bool := b == 32 || b == 9 || b == 13 || b == 10

/-- Skip white space. -/
def skipBlank (s : Bytes) : Bytes := s.dropWhile isBlank

/-- Four hexadecimal digits — `stateInStringEscU…` in scanner.go, `getu4` in decode.go. -/
def hex4 : Bytes → Option (Nat × Bytes)
  | a :: b :: c :: d :: t =>
    match Wire.unhex a, Wire.unhex b, Wire.unhex c, Wire.unhex d with
    | some w, some x, some y, some z => some (4096 * w + 256 * x + 16 * y + z, t)
    | _, _, _, _ => none
  | _ => none

/-- The byte of a two-character escape — `stateInStringEsc`, `unquoteBytes`. -/
def escapeByte (e : UInt8) : Option UInt8 :=
  if e = 34 ∨ e = 92 ∨ e = 47 then some e
  else if e = 98 then some 8
  else if e = 102 then some 12
  else if e = 110 then some 10
  else if e = 114 then some 13
  else if e = 116 then some 9
  else none

/-- The second half of an escaped surrogate pair whose first half is `u`: the rune (`utf16.DecodeRune`) and what follows. -/
def secondHalf (u : Nat) : Bytes → Option (Nat × Bytes)
  | 92 :: 117 :: t =>
    match hex4 t with
    | some (v, t') =>
      if u < 0xDC00 ∧ 0xDC00 ≤ v ∧ v < 0xE000 then some ((u - 0xD800) * 1024 + (v - 0xDC00) + 0x10000, t') else none
    | none => none
  | _ => none

/-- A string behind its opening quote, decoded, and what follows the closing quote — `stateInString` (scanner.go) and
`unquoteBytes` (decode.go): bytes below 0x20 are refused, invalid UTF-8 and unpaired surrogates become U+FFFD. The number bounds
the recursion. -/
def readString : Nat → Bytes → Option (Bytes × Bytes)
  | 0, _ => none
  | _ + 1, [] => none
  | n + 1, b :: t =>
    if b = 34 then some ([], t)
    else if b = 92 then
      match t with
      | [] => none
      | e :: t' =>
        if e = 117 then
          match hex4 t' with
          | none => none
          | some (u, t'') =>
            if 0xD800 ≤ u ∧ u < 0xE000 then
              match secondHalf u t'' with
              | some (r, t3) => (readString n t3).map fun p => (encodeRune r ++ p.1, p.2)
              | none => (readString n t'').map fun p => (encodeRune runeError ++ p.1, p.2)
            else (readString n t'').map fun p => (encodeRune u ++ p.1, p.2)
        else
          match escapeByte e with
          | none => none
          | some c => (readString n t').map fun p => (c :: p.1, p.2)
    else if b.toNat < 32 then none
    else
      (readString n ((b :: t).drop (decodeRune (b :: t)).2)).map fun p => (encodeRune (decodeRune (b :: t)).1 ++ p.1, p.2)

/-- A decimal digit. -/
def isDigit (b : UInt8) : Bool := decide (48 ≤ b.toNat) && decide (b.toNat ≤ 57)

/-- `-`, or nothing — `stateNeg`. -/
def readSign : Bytes → Bytes × Bytes
  | 45 :: t => ([45], t)
  | s => ([], s)

/-- `0`, or digits that do not begin with it — `state0`, `state1`. -/
def readInt : Bytes → Option (Bytes × Bytes)
  | [] => none
  | d :: t =>
    if isDigit d then
      if d = 48 then some ([48], t) else some (d :: t.takeWhile isDigit, t.dropWhile isDigit)
    else none

/-- A point with digits, or nothing — `stateDot`. -/
def readFrac : Bytes → Option (Bytes × Bytes)
  | 46 :: t => if t.takeWhile isDigit = [] then none else some (46 :: t.takeWhile isDigit, t.dropWhile isDigit)
  | s => some ([], s)

/-- The sign of an exponent — `stateE`. -/
def readExpSign : Bytes → Bytes × Bytes
  | 43 :: t => ([43], t)
  | 45 :: t => ([45], t)
  | s => ([], s)

/-- An exponent, or nothing — `stateE`, `stateESign`. -/
def readExp : Bytes → Option (Bytes × Bytes)
  | [] => some ([], [])
  | e :: t =>
    if e = 101 ∨ e = 69 then
      if (readExpSign t).2.takeWhile isDigit = [] then none
      else some (e :: ((readExpSign t).1 ++ (readExpSign t).2.takeWhile isDigit), (readExpSign t).2.dropWhile isDigit)
    else some ([], e :: t)

/-- A number and what follows — scanner.go. -/
def readNumber (s : Bytes) : Option (Bytes × Bytes) :=
  match readInt (readSign s).2 with
  | none => none
  | some (int, s1) =>
    match readFrac s1 with
    | none => none
    | some (frac, s2) =>
      match readExp s2 with
      | none => none
      | some (exp, s3) => some ((readSign s).1 ++ int ++ frac ++ exp, s3)

/-- A literal name. -/
def readName (name : Bytes) (v : Value) (s : Bytes) : Option (Value × Bytes) :=
  if s.take name.length = name then some (v, s.drop name.length) else none

mutual
/-- A value, perhaps behind white space, and what follows — `stateBeginValue`. -/
def readValue : Nat → Bytes → Option (Value × Bytes)
  | 0, _ => none
  | n + 1, s =>
    match skipBlank s with
    | [] => none
    | c :: t =>
      if c = 34 then (readString (t.length + 1) t).map fun p => (.str p.1, p.2)
      else if c = 91 then
        match skipBlank t with
        | [] => none
        | d :: t' => if d = 93 then some (.arr [], t') else (readElements n t).map fun p => (.arr p.1, p.2)
      else if c = 123 then
        match skipBlank t with
        | [] => none
        | d :: t' => if d = 125 then some (.obj [], t') else (readMembers n t).map fun p => (.obj p.1, p.2)
      else if c = 116 then readName [116, 114, 117, 101] (.bool true) (c :: t)
      else if c = 102 then readName [102, 97, 108, 115, 101] (.bool false) (c :: t)
      else if c = 110 then readName [110, 117, 108, 108] .null (c :: t)
      else (readNumber (c :: t)).map fun p => (.num p.1, p.2)
/-- The elements of an array up to the bracket that closes it — `stateEndValue` (parseArrayValue). -/
def readElements : Nat → Bytes → Option (List Value × Bytes)
  | 0, _ => none
  | n + 1, s =>
    match readValue n s with
    | none => none
    | some (v, t) =>
      match skipBlank t with
      | [] => none
      | d :: t' =>
        if d = 93 then some ([v], t')
        else if d = 44 then (readElements n t').map fun p => (v :: p.1, p.2)
        else none
/-- The members of an object up to the brace that closes it — `stateBeginString`, `stateEndValue` (parseObjectKey, parseObjectValue). -/
def readMembers : Nat → Bytes → Option (List (Bytes × Value) × Bytes)
  | 0, _ => none
  | n + 1, s =>
    match skipBlank s with
    | [] => none
    | q :: s' =>
      if q = 34 then
        match readString (s'.length + 1) s' with
        | none => none
        | some (k, s1) =>
          match skipBlank s1 with
          | [] => none
          | col :: s2 =>
            if col = 58 then
              match readValue n s2 with
              | none => none
              | some (v, t) =>
                match skipBlank t with
                | [] => none
                | d :: t' =>
                  if d = 125 then some ([(k, v)], t')
                  else if d = 44 then (readMembers n t').map fun p => ((k, v) :: p.1, p.2)
                  else none
            else none
      else none
end

/-- `checkValid` and decoding: the only value of the text — src/encoding/json/decode.go, scanner.go. -/
def readJson (s : Bytes) : Option Value :=
  match readValue (s.length + 1) s with
  | some (v, rest) => if skipBlank rest = [] then some v else none
  | none => none

/-! ### storing a value in a Go variable — src/encoding/json/decode.go; `none` is an `UnmarshalTypeError` -/

/-- The folding of letters in the comparison of keys with names of fields (`equalFoldRight`: the long s and the Kelvin sign). -/
def foldRune (r : Nat) : Nat := if 65 ≤ r ∧ r ≤ 90 then r + 32 else if r = 0x17F then 115 else if r = 0x212A then 107 else r

/-- Is the key the name of the field? (Go prefers an exact match; no two names of one struct are equal up to case.) -/
def isField (name : String) (key : Bytes) : Bool :=
  (runesOf key).map foldRune == (runesOf name.toUTF8.toList).map foldRune

/-- A `string` variable that holds `old`. -/
def storeText (old : Bytes) : Value → Option Bytes
  | .null => some old
  | .str s => some s
  | _ => none

/-- An `int` variable (64 bits). -/
def storeInt (old : Int) : Value → Option Int
  | .null => some old
  | .num t => (parseInt t).toOption
  | _ => none

/-- A `uint8` variable. -/
def storeUint8 (old : Nat) : Value → Option Nat
  | .null => some old
  | .num t =>
    match parseUint t with
    | .ok n => if n.toNat < 256 then some n.toNat else none
    | .error _ => none
  | _ => none

/-- A `[]string` variable. -/
def storeTexts : Value → Option (List Bytes)
  | .null => some []
  | .arr l => l.mapM (storeText [])
  | _ => none

/-- A `[2]string` variable: elements beyond the second are ignored, missing ones are "". -/
def storePair (old : Bytes × Bytes) : Value → Option (Bytes × Bytes)
  | .null => some old
  | .arr [] => some ([], [])
  | .arr [a] => (storeText old.1 a).map fun x => (x, [])
  | .arr (a :: b :: _) =>
    match storeText old.1 a, storeText old.2 b with
    | some x, some y => some (x, y)
    | _, _ => none
  | _ => none

/-! ### pkg/suggest/config.go -/

/-- `IndexDescription` — pkg/suggest/config.go:25-35. -/
structure Description where
  driver : Bytes := []
  name : Bytes := []
  nGramSize : Int := 0
  source : Bytes := []
  output : Bytes := []
  alphabet : List Bytes := []
  pad : Bytes := []
  wrap : Bytes × Bytes := ([], [])
  basePath : List Char := []

/-- One member of the object; unknown keys are ignored — pkg/suggest/config.go:25-35 (the tags). -/
def storeField (d : Description) (kv : Bytes × Value) : Option Description :=
  if isField "driver" kv.1 then (storeText d.driver kv.2).map fun x => { d with driver := x }
  else if isField "name" kv.1 then (storeText d.name kv.2).map fun x => { d with name := x }
  else if isField "nGramSize" kv.1 then (storeInt d.nGramSize kv.2).map fun x => { d with nGramSize := x }
  else if isField "source" kv.1 then (storeText d.source kv.2).map fun x => { d with source := x }
  else if isField "output" kv.1 then (storeText d.output kv.2).map fun x => { d with output := x }
  else if isField "alphabet" kv.1 then (storeTexts kv.2).map fun x => { d with alphabet := x }
  else if isField "pad" kv.1 then (storeText d.pad kv.2).map fun x => { d with pad := x }
  else if isField "wrap" kv.1 then (storePair d.wrap kv.2).map fun x => { d with wrap := x }
  else some d

/-- An element of `[]IndexDescription`. -/
def storeDescription : Value → Option Description
  | .null => some {}
  | .obj l => l.foldlM storeField {}
  | _ => none

/-- The variable `configs []IndexDescription`. -/
def storeDescriptions : Value → Option (List Description)
  | .null => some []
  | .arr l => l.mapM storeDescription
  | _ => none

/-- `ReadConfigs(configPath)`; `file` is the content of the file, if it can be read — pkg/suggest/config.go:84-113. -/
def readConfigs (configPath : List Char) (file : Option Bytes) : Except Err (List Description) :=
  match file with
  | none => .error (.other "open")
  | some data =>
    match (readJson data).bind storeDescriptions with
    | none => .error (.other "json")
    | some ds => .ok (ds.map fun d => { d with basePath := Paths.pathDir configPath })

/-! ### pkg/lm/config.go -/

/-- `Config` — pkg/lm/config.go:13-23. -/
structure ModelConfig where
  name : Bytes := []
  nGramOrder : Nat := 0
  source : Bytes := []
  output : Bytes := []
  alphabet : List Bytes := []
  separators : List Bytes := []
  startSymbol : Bytes := []
  endSymbol : Bytes := []
  basePath : List Char := []

/-- One member of the object — pkg/lm/config.go:13-23 (the tags). -/
def storeModelField (d : ModelConfig) (kv : Bytes × Value) : Option ModelConfig :=
  if isField "name" kv.1 then (storeText d.name kv.2).map fun x => { d with name := x }
  else if isField "nGramOrder" kv.1 then (storeUint8 d.nGramOrder kv.2).map fun x => { d with nGramOrder := x }
  else if isField "source" kv.1 then (storeText d.source kv.2).map fun x => { d with source := x }
  else if isField "output" kv.1 then (storeText d.output kv.2).map fun x => { d with output := x }
  else if isField "alphabet" kv.1 then (storeTexts kv.2).map fun x => { d with alphabet := x }
  else if isField "separators" kv.1 then (storeTexts kv.2).map fun x => { d with separators := x }
  else if isField "startSymbol" kv.1 then (storeText d.startSymbol kv.2).map fun x => { d with startSymbol := x }
  else if isField "endSymbol" kv.1 then (storeText d.endSymbol kv.2).map fun x => { d with endSymbol := x }
  else some d

/-- The variable `config Config`. -/
def storeModelConfig : Value → Option ModelConfig
  | .null => some {}
  | .obj l => l.foldlM storeModelField {}
  | _ => none

/-- `ReadConfig(configPath)` — pkg/lm/config.go:64-88. -/
def readModelConfig (configPath : List Char) (file : Option Bytes) : Except Err ModelConfig :=
  match file with
  | none => .error (.other "open")
  | some data =>
    match (readJson data).bind storeModelConfig with
    | none => .error (.other "json")
    | some c => .ok { c with basePath := Paths.pathDir configPath }

/-! ### what the programs do with a description -/

/-- Does the service load the files of the indexer (and not the source)? — pkg/suggest/service.go:35-41. -/
def Description.fromDisc (d : Description) : Bool := d.driver != "RAM".toUTF8.toList

/-- Does the indexer command process the description? — cmd/suggest/cmd/indexer.go:100-103. -/
def Description.indexed (d : Description) : Bool := d.driver == "DISC".toUTF8.toList

/-- What the tokenizers use — pkg/suggest/tokenizer.go:9-34. Simplification: the size is a natural number. -/
def Description.tokens (d : Description) : TokenConf := ⟨d.nGramSize.toNat, d.alphabet, d.pad, d.wrap.1, d.wrap.2⟩

end Verif.Conf
