import Verif.Model.Http
import Verif.Model.Builder
/-
Model of what is between a client of the suggest server and the service: the request target (Go, net/url and net/http), the
router (github.com/gorilla/mux v1.7.1, as set up in internal/suggest/api/app.go:70-77), the handlers
(internal/suggest/api/*_handler.go) and `json.Marshal` of their results (Go, encoding/json).

A request is its method and its target in origin form ("/path?query"), without a body; bytes of the connection, headers, CORS
and logging are not modelled. Of a response other than 200 only the kind is modelled.
-/
namespace Verif.Wire
open Verif

/-- The value of a hexadecimal digit — Go, src/net/url/url.go (`ishex`, `unhex`). -/
def unhex (c : UInt8) : Option Nat :=
  if 48 ≤ c.toNat ∧ c.toNat ≤ 57 then some (c.toNat - 48)
  else if 97 ≤ c.toNat ∧ c.toNat ≤ 102 then some (c.toNat - 97 + 10)
  else if 65 ≤ c.toNat ∧ c.toNat ≤ 70 then some (c.toNat - 65 + 10)
  else none

/-- `url.unescape`: "%XX" is a byte; with `plus` (query components) '+' is a space — Go, src/net/url/url.go. -/
def unescape (plus : Bool) : Bytes → Except Err Bytes
  | [] => .ok []
  | c :: rest =>
    if c = 37 then
      match rest with
      | a :: b :: rest' =>
        match unhex a, unhex b with
        | some x, some y =>
          match unescape plus rest' with
          | .error e => .error e
          | .ok s => .ok (UInt8.ofNat (16 * x + y) :: s)
        | _, _ => .error (.other "invalid URL escape")
      | _ => .error (.other "invalid URL escape")
    else
      match unescape plus rest with
      | .error e => .error e
      | .ok s => .ok ((if plus && c == 43 then 32 else c) :: s)

/-- The parts of a string between the bytes `sep` (`strings.Split`). -/
def splitOn (sep : UInt8) : Bytes → List Bytes
  | [] => [[]]
  | c :: rest =>
    if c = sep then [] :: splitOn sep rest
    else
      match splitOn sep rest with
      | [] => [[c]]
      | s :: ss => (c :: s) :: ss

/-- `strings.Index` followed by cutting at the separator: the part before the first `sep` and the part behind it (empty if there
is none). -/
def cutAt (sep : UInt8) : Bytes → Bytes × Bytes
  | [] => ([], [])
  | c :: rest => if c = sep then ([], rest) else let (a, b) := cutAt sep rest; (c :: a, b)

/-- `url.ParseRequestURI` of a target in origin form: the decoded path and the raw query — Go, src/net/url/url.go. -/
def parseTarget (target : Bytes) : Except Err (Bytes × Bytes) :=
  if target.any fun c => decide (c.toNat < 32) || decide (c.toNat = 127) then .error (.other "invalid control character in URL")
  else if target.head? ≠ some 47 then .error (.other "invalid URI for request")
  else
    let (path, query) := cutAt 63 target
    match unescape false path with
    | .error e => .error e
    | .ok p => .ok (p, query)

/-- The stack of `path.Clean` for a rooted path (the last element first): empty parts and "." are dropped, ".." removes the
part before it. -/
def cleanParts : List Bytes → List Bytes → List Bytes
  | stack, [] => stack
  | stack, s :: rest =>
    if s = [] ∨ s = [46] then cleanParts stack rest
    else if s = [46, 46] then cleanParts stack.tail rest
    else cleanParts (s :: stack) rest

/-- `cleanPath` — gorilla/mux, mux.go. (The path is not empty and begins with '/'.) -/
def cleanPath (p : Bytes) : Bytes :=
  let np := 47 :: ((cleanParts [] (splitOn 47 p)).reverse.intersperse [47]).flatten
  if p.getLast? = some 47 ∧ np ≠ [47] then np ++ [47] else np

/-- The request methods. -/
inductive Method where
  | get | post | other
  deriving DecidableEq

/-- What the router does with a request. -/
inductive Route where
  | home
  | autocomplete (dict query : Bytes)
  | suggest (dict query : Bytes)
  | dictList
  | reindex
  | redirect      -- 301
  | notFound      -- 404
  | notAllowed    -- 405
  deriving DecidableEq

/-- The routes "/autocomplete/{dict}/{query}/" etc. with StrictSlash: a variable matches a nonempty string without '/'; a path
without the final '/' is redirected to the path with it. The pattern "^/suggest/([^/]+)/([^/]+)[/]?$" matches iff the parts
between the slashes are "", "suggest", two nonempty ones and perhaps a last empty one —
internal/suggest/api/app.go:70-77; gorilla/mux, regexp.go. -/
def matchRoutes (method : Method) (path : Bytes) : Route :=
  let slash := decide (path.getLast? = some 47)
  let answer (m : Method) (r : Route) := if method ≠ m then .notAllowed else if slash then r else .redirect
  match if slash then (splitOn 47 path).dropLast else splitOn 47 path with
  | [a] => if a = [] then (if method = .get then .home else .notAllowed) else .notFound
  | [a, b, c] =>
    if a = [] ∧ b = "dict".toUTF8.toList ∧ c = "list".toUTF8.toList then answer .get .dictList
    else if a = [] ∧ b = "internal".toUTF8.toList ∧ c = "reindex".toUTF8.toList then answer .post .reindex
    else .notFound
  | [a, b, d, q] =>
    if a = [] ∧ b = "autocomplete".toUTF8.toList ∧ d ≠ [] ∧ q ≠ [] then answer .get (.autocomplete d q)
    else if a = [] ∧ b = "suggest".toUTF8.toList ∧ d ≠ [] ∧ q ≠ [] then answer .get (.suggest d q)
    else .notFound
  | _ => .notFound

/-- `Router.ServeHTTP`: a path that is not clean is redirected to the clean one — gorilla/mux, mux.go. -/
def route (method : Method) (path : Bytes) : Route :=
  if cleanPath path ≠ path then .redirect else matchRoutes method path

/-- `url.ParseQuery`: the pairs of the raw query; pairs that cannot be decoded are dropped — Go, src/net/url/url.go
(separators '&' and ';', as in the versions up to 1.16). -/
def parseQuery (raw : Bytes) : List (Bytes × Bytes) :=
  ((splitOn 38 raw).flatMap (splitOn 59)).filterMap fun part =>
    if part = [] then none
    else
      match unescape true (cutAt 61 part).1, unescape true (cutAt 61 part).2 with
      | .ok k, .ok v => some (k, v)
      | _, _ => none

/-- `r.FormValue(field)` of a request without a body: the first value of the field, "" if there is none. -/
def formValue (raw : Bytes) (field : String) : Bytes :=
  match (parseQuery raw).find? fun kv => kv.1 == field.toUTF8.toList with
  | some kv => kv.2
  | none => []

/-! ### json.Marshal -/

/-- `hex[n]` — Go, src/encoding/json/encode.go. -/
def hexDigit (n : Nat) : UInt8 := UInt8.ofNat (if n < 10 then 48 + n else 97 + (n - 10))

/-- One byte below 0x80 in a JSON string (`htmlSafeSet` and the `switch` behind it) — Go, src/encoding/json/encode.go. -/
def jsonByte (b : UInt8) : Bytes :=
  if b.toNat = 34 ∨ b.toNat = 92 then [92, b]
  else if b.toNat = 10 then [92, 110]
  else if b.toNat = 13 then [92, 114]
  else if b.toNat = 9 then [92, 116]
  else if b.toNat < 32 ∨ b.toNat = 60 ∨ b.toNat = 62 ∨ b.toNat = 38 then
    [92, 117, 48, 48, hexDigit (b.toNat / 16), hexDigit (b.toNat % 16)]
  else [b]

/-- The loop of `encodeState.string` with HTML escaping — Go, src/encoding/json/encode.go. -/
def jsonChars : Bytes → Bytes
  | [] => []
  | b :: t =>
    if b.toNat < 0x80 then jsonByte b ++ jsonChars t
    else
      (if (decodeRune (b :: t)).1 = runeError ∧ (decodeRune (b :: t)).2 = 1 then [92, 117, 102, 102, 102, 100]
       else if (decodeRune (b :: t)).1 = 0x2028 ∨ (decodeRune (b :: t)).1 = 0x2029 then
         [92, 117, 50, 48, 50, hexDigit ((decodeRune (b :: t)).1 % 16)]
       else (b :: t).take (decodeRune (b :: t)).2) ++ jsonChars ((b :: t).drop (decodeRune (b :: t)).2)
termination_by s => s.length
decreasing_by
  · simp
  · have := decodeRune_width_pos b t
    simp only [List.length_drop, List.length_cons]
    omega

/-- A string value. -/
def jsonString (s : Bytes) : Bytes := 34 :: (jsonChars s ++ [34])

/-- A slice. -/
def jsonArray (items : List Bytes) : Bytes := 91 :: ((items.intersperse [44]).flatten ++ [93])

/-- A `ResultItem` (`Score float64`, `Value string`, no tags); `num` is `strconv.AppendFloat` as encoding/json calls it —
pkg/suggest/service.go:12-17. -/
def jsonItem (num : ℚ → Bytes) (it : ℚ × Bytes) : Bytes :=
  "{\"Score\":".toUTF8.toList ++ num it.1 ++ ",\"Value\":".toUTF8.toList ++ jsonString it.2 ++ [125]

/-- `json.Marshal([]ResultItem)`; the slice is never nil (service.go:127, 161). -/
def jsonItems (num : ℚ → Bytes) (items : List (ℚ × Bytes)) : Bytes := jsonArray (items.map (jsonItem num))

/-! ### the handlers -/

/-- What the service has published under a name: the index, the dictionary and the two tokenizers of the description. -/
structure Published where
  index : OpenIndex
  dict : Dict
  suggestTok : Tokenizer
  completeTok : Tokenizer

/-- A response. -/
inductive Answer where
  | json (body : Bytes)   -- 200, application/json
  | ok (body : Bytes)     -- 200, text/plain
  | badRequest            -- 400
  | serverError           -- 500
  | redirect              -- 301
  | notFound              -- 404
  | notAllowed            -- 405

section
variable (F : FloatOps ℚ) (ρ : Roaring) (sort : List (PList ρ) → List (PList ρ)) (pf : Bytes → Except Err F64) (num : ℚ → Bytes)
  (published : Bytes → Option Published)

/-- The suggest handler, under some schedule of the search — internal/suggest/api/suggest_handler.go:43-76. -/
inductive SuggestHandled (dict query raw : Bytes) : Answer → Prop
  | bad {e} : buildSearchConfig pf (formValue raw) (goString query) = .error e → SuggestHandled dict query raw .badRequest
  | unknown {conf} : buildSearchConfig pf (formValue raw) (goString query) = .ok conf → published dict = none →
      SuggestHandled dict query raw .serverError
  | failed {conf x p e} : buildSearchConfig pf (formValue raw) (goString query) = .ok conf → conf.similarity = .num x →
      published dict = some p →
      ServiceSuggest F (conf.metric.metric F) ρ sort p.suggestTok p.index p.dict query x conf.topK (.error e) →
      SuggestHandled dict query raw .serverError
  | ok {conf x p items} : buildSearchConfig pf (formValue raw) (goString query) = .ok conf → conf.similarity = .num x →
      published dict = some p →
      ServiceSuggest F (conf.metric.metric F) ρ sort p.suggestTok p.index p.dict query x conf.topK (.ok items) →
      SuggestHandled dict query raw (.json (jsonItems num items))
  | failedNaN {conf p e} : buildSearchConfig pf (formValue raw) (goString query) = .ok conf → conf.similarity = .nan →
      published dict = some p →
      ServiceSuggestNaN F conf.metric.metric ρ sort p.suggestTok p.index p.dict query conf.topK (.error e) →
      SuggestHandled dict query raw .serverError
  | okNaN {conf p items} : buildSearchConfig pf (formValue raw) (goString query) = .ok conf → conf.similarity = .nan →
      published dict = some p →
      ServiceSuggestNaN F conf.metric.metric ρ sort p.suggestTok p.index p.dict query conf.topK (.ok items) →
      SuggestHandled dict query raw (.json (jsonItems num items))

/-- The autocomplete handler — internal/suggest/api/autocomplete_handler.go:18-52. -/
inductive CompleteHandled (dict query raw : Bytes) : Answer → Prop
  | bad {e} : autocompleteArgs (formValue raw) = .error e → CompleteHandled dict query raw .badRequest
  | unknown {limit} : autocompleteArgs (formValue raw) = .ok limit → published dict = none →
      CompleteHandled dict query raw .serverError
  | failed {limit p e} : autocompleteArgs (formValue raw) = .ok limit → published dict = some p →
      ServiceAutocomplete ρ sort p.completeTok p.index p.dict query limit (.error e) → CompleteHandled dict query raw .serverError
  | ok {limit p items} : autocompleteArgs (formValue raw) = .ok limit → published dict = some p →
      ServiceAutocomplete ρ sort p.completeTok p.index p.dict query limit (.ok items) →
      CompleteHandled dict query raw (.json (jsonItems num items))

/-- The answer of the server to a request (method and target) while `published` is what the service has published; `names` are
the published names — internal/suggest/api/app.go:70-77, dict_handler.go:16-31, home_handler.go:13-31. -/
inductive Answered (names : List Bytes) (method : Method) (target : Bytes) : Answer → Prop
  | malformed {e} : parseTarget target = .error e → Answered names method target .badRequest
  | redirect {path raw} : parseTarget target = .ok (path, raw) → route method path = .redirect → Answered names method target .redirect
  | notFound {path raw} : parseTarget target = .ok (path, raw) → route method path = .notFound → Answered names method target .notFound
  | notAllowed {path raw} : parseTarget target = .ok (path, raw) → route method path = .notAllowed →
      Answered names method target .notAllowed
  | home {path raw} : parseTarget target = .ok (path, raw) → route method path = .home →
      Answered names method target (.json "{\"project\":\"suggest-demo\",\"version\":\"v1\"}".toUTF8.toList)
  | dictList {path raw} {order : List Bytes} : parseTarget target = .ok (path, raw) → route method path = .dictList → order.Perm names →
      Answered names method target (.json (jsonArray (order.map jsonString)))
  | suggest {path raw dict query a} : parseTarget target = .ok (path, raw) → route method path = .suggest dict query →
      SuggestHandled F ρ sort pf num published dict query raw a → Answered names method target a
  | autocomplete {path raw dict query a} : parseTarget target = .ok (path, raw) → route method path = .autocomplete dict query →
      CompleteHandled ρ sort num published dict query raw a → Answered names method target a

end

end Verif.Wire
