import Verif.Model.Store
import Verif.Model.Text
/- Model of pkg/mph/mph.go, pkg/lm/indexer.go (without reading files) and of the dictionary interface
(pkg/dictionary/dictionary.go, memory_dictionary.go). Words are byte strings, uint32 values are natural numbers. -/
namespace Verif

/-- `NilValue` = "<nil/>" — pkg/dictionary/dictionary.go:7. -/
def nilValue : Bytes := [60, 110, 105, 108, 47, 62]

/-- A dictionary: the (key, value) pairs in the order of `Iterate`. Read errors (cdb on a broken disk) are not modelled. -/
abbrev Dict := List (Nat × Bytes)

/-- `Get`; a missing key gives `NilValue` and no error — pkg/dictionary/memory_dictionary.go:19-25,
cdb_dictionary.go:31-45 (the cdb library is taken as a map from the pairs that were put). -/
def Dict.get (d : Dict) (key : Nat) : Bytes :=
  match d.find? fun e => e.1 == key with
  | some e => e.2
  | none => nilValue

/-- `NewInMemoryDictionary`: the keys are the positions — pkg/dictionary/memory_dictionary.go:9-16, 33-41. -/
def ramDict (words : List Bytes) : Dict := words.zipIdx.map fun wi => (wi.2, wi.1)

/-- `math.MaxUint32`, the mark of a free slot — pkg/mph/mph.go:50. -/
def maxU32 : Nat := 2 ^ 32 - 1

/-- `hash` — pkg/mph/mph.go:236-247. -/
def mphHash (h : Nat) (value : Bytes) : Nat :=
  value.foldl (fun h c => (h * 16777619 % 2 ^ 32) ^^^ c.toNat) (if h = 0 then 2166136261 else h)

/-- `type mph struct` — pkg/mph/mph.go:33-36. -/
structure MPH where
  auxiliary : List Int
  values : List Nat
  deriving DecidableEq

/-- `int32(d)` of a uint32 — pkg/mph/mph.go:102, 229. -/
def toI32 (d : Nat) : Int := if d % 2 ^ 32 < 2 ^ 31 then (d % 2 ^ 32 : Nat) else (d % 2 ^ 32 : Nat) - 2 ^ 32

/-- Bucket `i` of step 1 — pkg/mph/mph.go:44-53. -/
def mphBucket (dict : Dict) (i : Nat) : List Nat :=
  (dict.filter fun e => mphHash 0 e.2 % dict.length == i).map Prod.fst

/-- One attempt of the placing loop with a given `d`: `none` when a slot is taken — pkg/mph/mph.go:77-94, 250-258. -/
def mphTry (size : Nat) (values : List Nat) (d : Nat) : List Bytes → List Nat → Option (List Nat)
  | [], slots => some slots
  | w :: ws, slots =>
    let slot := mphHash d w % size
    if values.getD slot maxU32 ≠ maxU32 ∨ slots.contains slot then none else mphTry size values d ws (slots ++ [slot])

/-- The placing loop: try d, d+1, ...; `none` if no attempt of the first `fuel` succeeds (the code has no bound) —
pkg/mph/mph.go:71-94. -/
def mphFind (size : Nat) (values : List Nat) (words : List Bytes) : Nat → Nat → Option (Nat × List Nat)
  | 0, _ => none
  | fuel + 1, d =>
    match mphTry size values d words [] with
    | some slots => some (d, slots)
    | none => mphFind size values words fuel (u32 (d + 1))

/-- `values[slots[i]] = key` — pkg/mph/mph.go:104-106. -/
def mphFill (values : List Nat) : List Nat → List Nat → List Nat
  | s :: slots, k :: keys => mphFill (values.set s k) slots keys
  | _, _ => values

/-- Step 2, the buckets with two or more items; returns the state and the remaining buckets (by index) —
pkg/mph/mph.go:64-109. -/
def mphMulti (dict : Dict) (fuel : Nat) : List Nat → List Int → List Nat → Option (List Nat × List Int × List Nat)
  | [], aux, values => some ([], aux, values)
  | i :: order, aux, values =>
    let bucket := mphBucket dict i
    if bucket.length ≤ 1 then some (i :: order, aux, values)
    else
      match mphFind dict.length values (bucket.map dict.get) fuel 1 with
      | none => none
      | some (d, slots) =>
        mphMulti dict fuel order (aux.set (mphHash 0 (dict.get (bucket.headD 0)) % dict.length) (toI32 d))
          (mphFill values slots bucket)

/-- `freeSlots` — pkg/mph/mph.go:114-120. -/
def mphFree : Nat → List Nat → List Nat
  | _, [] => []
  | i, v :: values => if v = maxU32 then i :: mphFree (i + 1) values else mphFree (i + 1) values

/-- The single-item buckets; `free` is `freeSlots` with its end first (the code pops from the end). A slot is below the
dictionary size, so `int32(-slot - 1)` is exact up to 2^31 words — pkg/mph/mph.go:122-139. -/
def mphSingle (dict : Dict) : List Nat → List Nat → List Int → List Nat → List Int × List Nat
  | i :: order, slot :: free, aux, values =>
    match mphBucket dict i with
    | [] => (aux, values)
    | key :: _ =>
      mphSingle dict order free (aux.set (mphHash 0 (dict.get key) % dict.length) (-(slot : Int) - 1)) (values.set slot key)
  | _, _, aux, values => (aux, values)

/-- `Build`: `order` is the result of sorting the bucket indexes; `none` if the placing of some bucket needs more than
`fuel` attempts — pkg/mph/mph.go:40-145. `sort.Slice` is unstable, so `order` is a parameter: any arrangement of the
buckets by descending size. -/
def mphBuild (dict : Dict) (order : List Nat) (fuel : Nat) : Option MPH :=
  match mphMulti dict fuel order (List.replicate dict.length 0) (List.replicate dict.length maxU32) with
  | none => none
  | some (rest, aux, values) =>
    let r := mphSingle dict rest (mphFree 0 values).reverse aux values
    some ⟨r.1, r.2⟩

/-- What `sort.Slice` may return: the indexes of all buckets, larger buckets first — pkg/mph/mph.go:60-62. -/
structure MphOrder (dict : Dict) (order : List Nat) : Prop where
  perm : order.Perm (List.range dict.length)
  descending : order.Pairwise fun i j => (mphBucket dict j).length ≤ (mphBucket dict i).length

/-- `m.values[i]` with its bounds check. -/
def mphValue (m : MPH) (i : Int) : Except Err Nat :=
  if 0 ≤ i then
    match m.values[i.toNat]? with
    | some v => .ok v
    | none => .error .panicIndex
  else .error .panicIndex

/-- `Get` — pkg/mph/mph.go:148-156. For `d < 0` the int32 value `-d - 1` is exact, also for the least int32. -/
def MPH.get (m : MPH) (word : Bytes) : Except Err Nat :=
  if m.auxiliary.length = 0 then .error .panicDivide
  else
    let d := m.auxiliary.getD (mphHash 0 word % m.auxiliary.length) 0
    if d < 0 then mphValue m (-d - 1)
    else if m.values.length = 0 then .error .panicDivide
    else mphValue m ((mphHash d.toNat word % m.values.length : Nat) : Int)

/-- `UnknownWordID` — pkg/lm/indexer.go:18. -/
def unknownWordID : Nat := 2 ^ 32 - 1

/-- `UnknownWordSymbol` = "<UNK>" — pkg/lm/indexer.go:20. -/
def unknownWordSymbol : Bytes := [60, 85, 78, 75, 62]

/-- `indexerImpl.Get` — pkg/lm/indexer.go:58-71. -/
def indexerGet (dict : Dict) (table : MPH) (token : Bytes) : Except Err Nat :=
  match table.get token with
  | .error e => .error e
  | .ok index => if dict.get index ≠ token then .ok unknownWordID else .ok index

/-- `indexerImpl.Find` — pkg/lm/indexer.go:74-86. -/
def indexerFind (dict : Dict) (index : Nat) : Bytes :=
  if dict.get index = nilValue then unknownWordSymbol else dict.get index

/-- `uint32(v)` of an int32 — pkg/mph/mph.go:183. -/
def fromI32 (v : Int) : Nat := (v % 2 ^ 32).toNat

/-- The bytes written by `Store` — pkg/mph/mph.go:159-192. `WriteUInt32` is `encUInt32`. -/
def MPH.store (m : MPH) : List UInt8 :=
  encUInt32 m.values.length ++ m.values.flatMap encUInt32 ++
    (encUInt32 m.auxiliary.length ++ m.auxiliary.flatMap fun v => encUInt32 (fromI32 v))

/-- The loops of `Load`: `n` values — pkg/mph/mph.go:204-212. -/
def readUInt32s : Nat → BytesInput → Except Err (List Nat) × BytesInput
  | 0, r => (.ok [], r)
  | n + 1, r =>
    match r.readUInt32 with
    | (.error e, r') => (.error e, r')
    | (.ok v, r') =>
      match readUInt32s n r' with
      | (.error e, r'') => (.error e, r'')
      | (.ok vs, r'') => (.ok (v :: vs), r'')

/-- `Load` — pkg/mph/mph.go:195-233. -/
def mphLoad (r : BytesInput) : Except Err MPH × BytesInput :=
  match r.readUInt32 with
  | (.error e, r) => (.error e, r)
  | (.ok n, r) =>
    match readUInt32s n r with
    | (.error e, r) => (.error e, r)
    | (.ok values, r) =>
      match r.readUInt32 with
      | (.error e, r) => (.error e, r)
      | (.ok s, r) =>
        match readUInt32s s r with
        | (.error e, r) => (.error e, r)
        | (.ok aux, r) => (.ok ⟨aux.map toI32, values⟩, r)

end Verif
