import Verif.Model.Wire
/-
Model of the spell checker server between the request and `Predict`: the router as set up in
internal/spellchecker/api/app.go:58-62 and the handlers predict_handler.go, home_handler.go. The same conventions as in
Model/Wire: a request is its method and its target; gorilla/mux, net/url and encoding/json by their documented behaviour.
-/
namespace Verif.Wire
open Verif

/-- What the router of the spell checker does with a request. -/
inductive SpellRoute where
  | home
  | predict (query : Bytes)
  | redirect      -- 301
  | notFound      -- 404
  | notAllowed    -- 405
  deriving DecidableEq

/-- The routes "/" and "/predict/{query}/" with StrictSlash — internal/spellchecker/api/app.go:58-62. -/
def matchSpell (method : Method) (path : Bytes) : SpellRoute :=
  let slash := decide (path.getLast? = some 47)
  match if slash then (splitOn 47 path).dropLast else splitOn 47 path with
  | [a] => if a = [] then (if method = .get then .home else .notAllowed) else .notFound
  | [a, b, q] =>
    if a = [] ∧ b = "predict".toUTF8.toList ∧ q ≠ [] then
      (if method ≠ .get then .notAllowed else if slash then .predict q else .redirect)
    else .notFound
  | _ => .notFound

/-- `Router.ServeHTTP` — gorilla/mux, mux.go. -/
def routeSpell (method : Method) (path : Bytes) : SpellRoute :=
  if cleanPath path ≠ path then .redirect else matchSpell method path

/-- `json.Marshal([]string)`; `Predict` never returns a nil slice without an error (pkg/spellchecker/spellchecker.go:44, 111). -/
def jsonWords (ws : List Bytes) : Bytes := jsonArray (ws.map jsonString)

/-- The answer of the spell checker server to a request, under some schedule of the searches —
internal/spellchecker/api/app.go:58-62, predict_handler.go:19-59, home_handler.go:13-31. -/
inductive SpellAnswered {S : Type} [LinearOrder S] [Inhabited S] (F : FloatOps S) (real : ℚ → S) (val : LMScore → S)
    (sc : SpellChecker) (pf : Bytes → Except Err F64) (method : Method) (target : Bytes) : Answer → Prop
  | malformed {e} : parseTarget target = .error e → SpellAnswered F real val sc pf method target .badRequest
  | redirect {path raw} : parseTarget target = .ok (path, raw) → routeSpell method path = .redirect →
      SpellAnswered F real val sc pf method target .redirect
  | notFound {path raw} : parseTarget target = .ok (path, raw) → routeSpell method path = .notFound →
      SpellAnswered F real val sc pf method target .notFound
  | notAllowed {path raw} : parseTarget target = .ok (path, raw) → routeSpell method path = .notAllowed →
      SpellAnswered F real val sc pf method target .notAllowed
  | home {path raw} : parseTarget target = .ok (path, raw) → routeSpell method path = .home →
      SpellAnswered F real val sc pf method target (.json "{\"project\":\"spellchecker-demo\",\"version\":\"v1\"}".toUTF8.toList)
  | bad {path raw query} : parseTarget target = .ok (path, raw) → routeSpell method path = .predict query →
      PredictHandled F real val sc pf (formValue raw) query .badRequest → SpellAnswered F real val sc pf method target .badRequest
  | failed {path raw query} : parseTarget target = .ok (path, raw) → routeSpell method path = .predict query →
      PredictHandled F real val sc pf (formValue raw) query .serverError → SpellAnswered F real val sc pf method target .serverError
  | words {path raw query ws} : parseTarget target = .ok (path, raw) → routeSpell method path = .predict query →
      PredictHandled F real val sc pf (formValue raw) query (.json ws) → SpellAnswered F real val sc pf method target (.json (jsonWords ws))

end Verif.Wire
