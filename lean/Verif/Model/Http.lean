import Verif.Model.Spellchecker
import Verif.Model.Autocomplete
/-
Model of the request handling: internal/http/utils.go, internal/spellchecker/api/predict_handler.go,
internal/suggest/api/autocomplete_handler.go and suggest_handler.go.

A request is its form values (`form field` is `r.FormValue(field)`, empty if missing) and its path variables.
`strconv.ParseInt` is modelled from the Go standard library; `strconv.ParseFloat` is a parameter `pf`. Only the parameters
of a call and the kind of the response are modelled; `json.Marshal` of strings and numbers and writing the response do not fail.
-/
namespace Verif
open Spec (Candidate)

/-- The loop of `strconv.ParseUint` for base 10 and 64 bits: `cutoff` is `maxUint64/10 + 1`; the arithmetic is that of
uint64 — Go, src/strconv/atoi.go (called from internal/http/utils.go:48). -/
def parseUintLoop : Bytes → UInt64 → Except Err UInt64
  | [], n => .ok n
  | c :: s, n =>
    if c < 48 || c > 57 then .error (.other "invalid syntax")
    else if n ≥ 1844674407370955162 then .error (.other "value out of range")
    else
      let n := n * 10
      let n1 := n + (c - 48).toUInt64
      if n1 < n then .error (.other "value out of range") else parseUintLoop s n1

/-- `strconv.ParseUint(s, 10, 64)`. -/
def parseUint (s : Bytes) : Except Err UInt64 :=
  if s = [] then .error (.other "invalid syntax") else parseUintLoop s 0

/-- `strconv.ParseInt(s, 10, 0)` on a 64-bit platform — Go, src/strconv/atoi.go. -/
def parseInt (s : Bytes) : Except Err Int :=
  match s with
  | [] => .error (.other "invalid syntax")
  | c :: rest =>
    let neg := c == 45
    let digits := if c == 43 || c == 45 then rest else c :: rest
    match parseUint digits with
    | .error e => .error e
    | .ok un =>
      if !neg && un ≥ 9223372036854775808 then .error (.other "value out of range")
      else if neg && un > 9223372036854775808 then .error (.other "value out of range")
      else .ok (if neg then -(un.toNat : Int) else un.toNat)

/-- `FormIntValue` — internal/http/utils.go:41-55. -/
def formInt (val : Bytes) (dflt : Int) : Except Err Int := if val = [] then .ok dflt else parseInt val

/-- `FormTopKValue` — internal/http/utils.go:11-23. -/
def formTopK (val : Bytes) (dflt : Int) : Except Err Int :=
  match formInt val dflt with
  | .error e => .error e
  | .ok v => if v < 0 then .error (.other "topK should be positive integer") else .ok v

/-- `x < y`: false if one of them is NaN. -/
def F64.lt (x y : F64) : Bool := F64.gt y x

/-- `FormFloatValue` — internal/http/utils.go:57-71. -/
def formFloat (pf : Bytes → Except Err F64) (val : Bytes) (dflt : F64) : Except Err F64 := if val = [] then .ok dflt else pf val

/-- `FormSimilarityValue` — internal/http/utils.go:27-39. -/
def formSimilarity (pf : Bytes → Except Err F64) (val : Bytes) (dflt : F64) : Except Err F64 :=
  match formFloat pf val dflt with
  | .error e => .error e
  | .ok v => if v.lt (.num 0) || v.gt (.num 1) then .error (.other "similarity should be in [0, 1] range") else .ok v

/-- The parameters with which the predict handler calls the spell checker, or status 400 —
internal/spellchecker/api/predict_handler.go:25-37. -/
def predictArgs (pf : Bytes → Except Err F64) (form : String → Bytes) : Except Err (Int × F64) :=
  match formTopK (form "topK") 5 with
  | .error e => .error e
  | .ok topK =>
    match formSimilarity pf (form "similarity") (.num (1 / 2)) with
    | .error e => .error e
    | .ok sim => .ok (topK, sim)

/-- The limit with which the autocomplete handler calls the service, or status 400 —
internal/suggest/api/autocomplete_handler.go:25-30. -/
def autocompleteArgs (form : String → Bytes) : Except Err Int := formTopK (form "topK") 5

/-- The metrics known to the suggest handler — internal/suggest/api/suggest_handler.go:13-34. -/
inductive MetricName where
  | jaccard | cosine | dice | exact | overlap
  deriving DecidableEq

/-- `metrics[metricName]` — internal/suggest/api/suggest_handler.go:87-92. -/
def metricOf (name : Bytes) : Option MetricName :=
  if name = [74, 97, 99, 99, 97, 114, 100] then some .jaccard
  else if name = [67, 111, 115, 105, 110, 101] then some .cosine
  else if name = [68, 105, 99, 101] then some .dice
  else if name = [69, 120, 97, 99, 116] then some .exact
  else if name = [79, 118, 101, 114, 108, 97, 112] then some .overlap
  else none

/-- The map `metrics`: what each name stands for — internal/suggest/api/suggest_handler.go:26-34. -/
def MetricName.metric {S : Type} (F : FloatOps S) : MetricName → Metric S
  | .jaccard => jaccardMetric F
  | .cosine => cosineMetric F
  | .dice => diceMetric F
  | .exact => exactMetric F
  | .overlap => overlapMetric F

/-- `buildSearchConfig` — internal/suggest/api/suggest_handler.go:79-101. -/
def buildSearchConfig (pf : Bytes → Except Err F64) (form : String → Bytes) (query : String) : Except Err (SearchConfig MetricName) :=
  match formTopK (form "topK") 5 with
  | .error e => .error e
  | .ok topK =>
    match metricOf (form "metric") with
    | none => .error (.other "metric is not found")
    | some m =>
      match formSimilarity pf (form "similarity") (.num (1 / 2)) with
      | .error e => .error e
      | .ok sim => newSearchConfig query topK m sim

/-- The response of a handler. -/
inductive Response (R : Type) where
  | badRequest       -- 400
  | serverError      -- 500
  | json (result : R)  -- 200

section
variable {S : Type} [LinearOrder S] [Inhabited S] (F : FloatOps S) (real : ℚ → S) (val : LMScore → S) (sc : SpellChecker)
  (pf : Bytes → Except Err F64) (form : String → Bytes) (query : Bytes)

/-- `Predict` with the similarity NaN returns `r`: if the loop of the fuzzy search would not end, that search was not needed —
pkg/spellchecker/spellchecker.go:40-92. -/
def PredictReturnsNaN (topK : Int) (r : Except Err (List Bytes)) : Prop :=
  PredictReturns (nanOps F) (fun s => (val s : WithTop S)) sc query topK ⊤ r ∧
    ∀ seq word, sc.tokenize query = seq ++ [word] → sc.grams word ≠ [] →
      (nanCall F cosineMetric sc.ρ sc.sort sc.index (sc.grams word) topK).Endless →
      (∃ e, spellScorer sc seq = .error e ∧ r = .error e) ∨
      ∃ next, spellScorer sc seq = .ok next ∧ ∃ cs,
        AutocompleteReturns (lmAutocompleteCall sc.ρ sc.sort sc.index (sc.prefixGrams word)
          (lmScore (fun s => (val s : WithTop S)) next) topK) cs ∧
        match cs with
        | .error e => r = .error e
        | .ok cs => topK ≤ cs.length ∧ r = predictFinish sc (fun s => (val s : WithTop S)) next topK cs

/-- The predict handler sends `resp` under some schedule; `real x` is the number `x` of the float type —
internal/spellchecker/api/predict_handler.go:19-59. -/
inductive PredictHandled : Response (List Bytes) → Prop
  | bad {e} : predictArgs pf form = .error e → PredictHandled .badRequest
  | failed {topK x e} : predictArgs pf form = .ok (topK, .num x) → PredictReturns F val sc query topK (real x) (.error e) →
      PredictHandled .serverError
  | ok {topK x ws} : predictArgs pf form = .ok (topK, .num x) → PredictReturns F val sc query topK (real x) (.ok ws) →
      PredictHandled (.json ws)
  | failedNaN {topK e} : predictArgs pf form = .ok (topK, .nan) → PredictReturnsNaN F val sc query topK (.error e) →
      PredictHandled .serverError
  | okNaN {topK ws} : predictArgs pf form = .ok (topK, .nan) → PredictReturnsNaN F val sc query topK (.ok ws) →
      PredictHandled (.json ws)

/-- The predict handler panics, or one of the goroutines it started. -/
def PredictHandlerPanics : Prop :=
  (∃ topK x, predictArgs pf form = .ok (topK, .num x) ∧ PredictPanics F val sc query topK (real x)) ∨
    ∃ topK, predictArgs pf form = .ok (topK, .nan) ∧ PredictPanics (nanOps F) (fun s => (val s : WithTop S)) sc query topK ⊤

/-- The predict handler never answers. -/
def PredictHandlerBlocks : Prop :=
  (∃ topK x, predictArgs pf form = .ok (topK, .num x) ∧ PredictBlocks F val sc query topK (real x)) ∨
    ∃ topK, predictArgs pf form = .ok (topK, .nan) ∧
      (PredictBlocks (nanOps F) (fun s => (val s : WithTop S)) sc query topK ⊤ ∨
        ∃ seq word next cs, sc.tokenize query = seq ++ [word] ∧ spellScorer sc seq = .ok next ∧
          AutocompleteReturns (lmAutocompleteCall sc.ρ sc.sort sc.index (sc.prefixGrams word)
            (lmScore (fun s => (val s : WithTop S)) next) topK) (.ok cs) ∧
          (cs.length : Int) < topK ∧ sc.grams word ≠ [] ∧
          (nanCall F cosineMetric sc.ρ sc.sort sc.index (sc.grams word) topK).Endless)

end
end Verif
