import Verif.Model.WirePredict
import Verif.Model.Spellchecker
import Mathlib.Logic.Relation
/-
Model of the two HTTP servers as processes that serve many clients at once (internal/http/http_server.go,
internal/suggest/api/app.go, internal/spellchecker/api/app.go). net/http runs every request in a goroutine of its own; by its
documentation a panic of that goroutine is recovered and only its connection is closed ("If ServeHTTP panics, the server … recovers
the panic, logs a stack trace to the server error log, and … closes the network connection"). A panic of any other goroutine ends
the process (Go language specification, "Handling panics"). The goroutines that `Suggest` and `Autocomplete` start
(pkg/suggest/suggester.go:70, autocomplete.go:56; errgroup does not recover) are such other goroutines. The Go runtime ends the
process too when it detects that a map is written while it is iterated ("fatal error: concurrent map iteration and map write").

Not modelled: memory (see Model/Memory), files unmapped while they are read (C78),
signals (Model/Lifecycle), panics of a reload by signal.
-/
namespace Verif.Serve
open Verif Verif.Wire

/-- What becomes of a request. -/
inductive Fate where
  | answered (a : Answer)
  | aborted   -- the goroutine of the request panics: net/http closes this connection without an answer
  | stuck     -- it waits for ever
  | fatal     -- another goroutine, started for the request, panics: the process ends

section
variable {S : Type} [LinearOrder S] [Inhabited S] {Env κ : Type}

/-- How a call of `Suggest` can fail to return; up to the start of the workers it runs in the goroutine of the request
(pkg/suggest/suggester.go:46-69), the searches in goroutines of their own (70-110). -/
inductive SuggestFails (c : SConf S Env) : Fate → Prop
  | own {e} : c.sizeA ≠ 0 → c.start = .error e → SuggestFails c .aborted
  | blocks : SuggestBlocks c → SuggestFails c .stuck
  | worker {s} : c.sizeA ≠ 0 → c.Reachable s → s.panicked ≠ none → SuggestFails c .fatal

/-- The same for `Autocomplete` — pkg/suggest/autocomplete.go:40-76. -/
inductive AutocompleteFails (c : AConf κ S Env) : Fate → Prop
  | own {e} : c.start = .error e → AutocompleteFails c .aborted
  | blocks : AutocompleteBlocks c → AutocompleteFails c .stuck
  | worker {s} : c.Reachable s → s.panicked ≠ none → AutocompleteFails c .fatal

end

/-- What the suggest server has published. -/
structure World where
  published : Bytes → Option Published
  names : List Bytes

section
variable (F : FloatOps ℚ) (ρ : Roaring) (sort : List (PList ρ) → List (PList ρ)) (pf : Bytes → Except Err F64) (num : ℚ → Bytes)

/-- What can become of a request to the suggest server — internal/suggest/api/app.go:70-77, suggest_handler.go:43-76,
autocomplete_handler.go:18-52, reindex_handler.go:11-24. (`Answered` also has the answer 500 where a tokenizer panics; in the code that
is only `aborted`.) -/
inductive RequestFate (w : World) (method : Method) (target : Bytes) : Fate → Prop
  | answered {a} : Answered F ρ sort pf num w.published w.names method target a → RequestFate w method target (.answered a)
  /-- a reload in the goroutine of the request succeeds, fails or panics -/
  | reindexed {path raw fate} : parseTarget target = .ok (path, raw) → route method path = .reindex →
      fate ∈ [.answered (.ok "OK".toUTF8.toList), .answered .serverError, .aborted] → RequestFate w method target fate
  | suggestToken {path raw dict query conf p e} : parseTarget target = .ok (path, raw) → route method path = .suggest dict query →
      buildSearchConfig pf (formValue raw) (goString query) = .ok conf → w.published dict = some p → p.suggestTok query = .error e →
      RequestFate w method target .aborted
  | suggest {path raw dict query conf x p q fate} : parseTarget target = .ok (path, raw) → route method path = .suggest dict query →
      buildSearchConfig pf (formValue raw) (goString query) = .ok conf → conf.similarity = .num x → w.published dict = some p →
      p.suggestTok query = .ok q →
      SuggestFails (suggestCall F (conf.metric.metric F) ρ sort p.index (q.map goString) x conf.topK) fate →
      RequestFate w method target fate
  /-- the similarity NaN (the search as above; or its loop never ends) -/
  | suggestNaN {path raw dict query conf p q fate} : parseTarget target = .ok (path, raw) → route method path = .suggest dict query →
      buildSearchConfig pf (formValue raw) (goString query) = .ok conf → conf.similarity = .nan → w.published dict = some p →
      p.suggestTok query = .ok q →
      SuggestFails (nanCall F conf.metric.metric ρ sort p.index (q.map goString) conf.topK) fate →
      RequestFate w method target fate
  | suggestEndless {path raw dict query conf p q} : parseTarget target = .ok (path, raw) → route method path = .suggest dict query →
      buildSearchConfig pf (formValue raw) (goString query) = .ok conf → conf.similarity = .nan → w.published dict = some p →
      p.suggestTok query = .ok q → q ≠ [] →
      (nanCall F conf.metric.metric ρ sort p.index (q.map goString) conf.topK).Endless → RequestFate w method target .stuck
  | completeToken {path raw dict query limit p e} : parseTarget target = .ok (path, raw) → route method path = .autocomplete dict query →
      autocompleteArgs (formValue raw) = .ok limit → w.published dict = some p → p.completeTok query = .error e →
      RequestFate w method target .aborted
  | complete {path raw dict query limit p q fate} : parseTarget target = .ok (path, raw) → route method path = .autocomplete dict query →
      autocompleteArgs (formValue raw) = .ok limit → w.published dict = some p → p.completeTok query = .ok q →
      AutocompleteFails (autocompleteCall ρ sort p.index (q.map goString) limit) fate → RequestFate w method target fate

end

section
variable {S : Type} [LinearOrder S] [Inhabited S] (F : FloatOps S) (real : ℚ → S) (val : LMScore → S)
    (sc : SpellChecker) (pf : Bytes → Except Err F64)

/-- How a call of `Predict` can fail to return — pkg/spellchecker/spellchecker.go:40-92. -/
inductive PredictFails (query : Bytes) (topK : Int) (similarity : S) : Fate → Prop
  | auto {seq word next fate} : sc.tokenize query = seq ++ [word] → spellScorer sc seq = .ok next →
      AutocompleteFails (lmAutocompleteCall sc.ρ sc.sort sc.index (sc.prefixGrams word) (lmScore val next) topK) fate →
      PredictFails query topK similarity fate
  | fuzzy {seq word next cs fate} : sc.tokenize query = seq ++ [word] → spellScorer sc seq = .ok next →
      AutocompleteReturns (lmAutocompleteCall sc.ρ sc.sort sc.index (sc.prefixGrams word) (lmScore val next) topK) (.ok cs) →
      (cs.length : Int) < topK →
      SuggestFails (suggestCall F (cosineMetric F) sc.ρ sc.sort sc.index (sc.grams word) similarity topK) fate →
      PredictFails query topK similarity fate
  /-- sorting and cutting in the goroutine of the request -/
  | finish {e} : PredictReturns F val sc query topK similarity (.error e) → e.isPanic = true → PredictFails query topK similarity .aborted

/-- How a call of `Predict` with the similarity NaN can fail to return: as above, or the loop of the fuzzy search never ends —
pkg/spellchecker/spellchecker.go:40-92, pkg/suggest/suggester.go:111-120. -/
inductive PredictFailsNaN (query : Bytes) (topK : Int) : Fate → Prop
  | auto {seq word next fate} : sc.tokenize query = seq ++ [word] → spellScorer sc seq = .ok next →
      AutocompleteFails (lmAutocompleteCall sc.ρ sc.sort sc.index (sc.prefixGrams word)
        (lmScore (fun s => (val s : WithTop S)) next) topK) fate → PredictFailsNaN query topK fate
  | fuzzy {seq word next cs fate} : sc.tokenize query = seq ++ [word] → spellScorer sc seq = .ok next →
      AutocompleteReturns (lmAutocompleteCall sc.ρ sc.sort sc.index (sc.prefixGrams word)
        (lmScore (fun s => (val s : WithTop S)) next) topK) (.ok cs) →
      (cs.length : Int) < topK →
      SuggestFails (nanCall F cosineMetric sc.ρ sc.sort sc.index (sc.grams word) topK) fate → PredictFailsNaN query topK fate
  | finish {e} : PredictReturnsNaN F val sc query topK (.error e) → e.isPanic = true → PredictFailsNaN query topK .aborted
  | endless {seq word next cs} : sc.tokenize query = seq ++ [word] → spellScorer sc seq = .ok next →
      AutocompleteReturns (lmAutocompleteCall sc.ρ sc.sort sc.index (sc.prefixGrams word)
        (lmScore (fun s => (val s : WithTop S)) next) topK) (.ok cs) →
      (cs.length : Int) < topK → sc.grams word ≠ [] →
      (nanCall F cosineMetric sc.ρ sc.sort sc.index (sc.grams word) topK).Endless → PredictFailsNaN query topK .stuck

/-- What can become of a request to the spell checker server — internal/spellchecker/api/app.go:58-62, predict_handler.go:19-59. -/
inductive SpellFate (method : Method) (target : Bytes) : Fate → Prop
  | answered {a} : SpellAnswered F real val sc pf method target a → SpellFate method target (.answered a)
  | predict {path raw query topK x fate} : parseTarget target = .ok (path, raw) → routeSpell method path = .predict query →
      predictArgs pf (formValue raw) = .ok (topK, .num x) → PredictFails F val sc query topK (real x) fate →
      SpellFate method target fate
  | predictNaN {path raw query topK fate} : parseTarget target = .ok (path, raw) → routeSpell method path = .predict query →
      predictArgs pf (formValue raw) = .ok (topK, .nan) → PredictFailsNaN F val sc query topK fate → SpellFate method target fate

end

/-! ### The process -/

/-- A server: what can become of a request when `w` is what it serves; how what it serves can change; which requests read the maps
of the service without the lock. -/
structure Server (W : Type) where
  fate : W → Method → Bytes → Fate → Prop
  change : W → W → Prop
  iterates : Method → Bytes → Prop

/-- Where a request is. -/
inductive Conn (W : Type) where
  | waiting               -- accepted, not looked at yet
  | working (w : W)       -- it has looked up what it searches in (under the read lock: pkg/suggest/service.go:104-107, 142-145)
  | answered (a : Answer)
  | aborted
  | stuck
  | cut                   -- the process has ended, there is no answer

/-- Is the client still waiting? -/
def Conn.open {W : Type} : Conn W → Bool
  | .waiting | .working _ | .stuck => true
  | _ => false

/-- A process with its requests, in the order in which they were accepted. -/
structure State (W : Type) where
  up : Bool
  world : W
  conns : List (Method × Bytes × Conn W)

/-- The process ends: whoever is still waiting gets no answer. -/
def State.dead {W : Type} (s : State W) : State W :=
  ⟨false, s.world, s.conns.map fun c => (c.1, c.2.1, if c.2.2.open then .cut else c.2.2)⟩

/-- The request `i` is now at `c`. -/
def State.put {W : Type} (s : State W) (i : Nat) (m : Method) (t : Bytes) (c : Conn W) : State W :=
  { s with conns := s.conns.set i (m, t, c) }

/-- The steps of the process; `client m t`: there are clients that send this request — net/http, `Server.Serve`;
internal/http/http_server.go:24-48; pkg/suggest/service.go:82-101. -/
inductive Step {W : Type} (K : Server W) (client : Method → Bytes → Prop) : State W → State W → Prop
  | arrive {s : State W} {m t} : s.up = true → client m t → Step K client s { s with conns := s.conns ++ [(m, t, .waiting)] }
  | begin {s : State W} {i : Nat} {m t} : s.up = true → s.conns[i]? = some (m, t, .waiting) →
      Step K client s (s.put i m t (.working s.world))
  | answer {s : State W} {i : Nat} {m t w a} : s.up = true → s.conns[i]? = some (m, t, .working w) → K.fate w m t (.answered a) →
      Step K client s (s.put i m t (.answered a))
  | abort {s : State W} {i : Nat} {m t w} : s.up = true → s.conns[i]? = some (m, t, .working w) → K.fate w m t .aborted →
      Step K client s (s.put i m t .aborted)
  | hang {s : State W} {i : Nat} {m t w} : s.up = true → s.conns[i]? = some (m, t, .working w) → K.fate w m t .stuck →
      Step K client s (s.put i m t .stuck)
  | crash {s : State W} {i : Nat} {m t w} : s.up = true → s.conns[i]? = some (m, t, .working w) → K.fate w m t .fatal →
      Step K client s s.dead
  /-- a reload publishes an index -/
  | publish {s : State W} {w'} : s.up = true → K.change s.world w' → Step K client s { s with world := w' }
  /-- … while a request iterates the map -/
  | race {s : State W} {i : Nat} {m t w w'} : s.up = true → s.conns[i]? = some (m, t, .working w) → K.iterates m t →
      K.change s.world w' → Step K client s s.dead

/-- Any number of steps. -/
abbrev Steps {W : Type} (K : Server W) (client : Method → Bytes → Prop) : State W → State W → Prop :=
  Relation.ReflTransGen (Step K client)

/-- The suggest server; `reload` says what a reload (a request or a signal) can publish. `GetDictionaries` iterates the map without a
lock — pkg/suggest/service.go:94-101, internal/suggest/api/dict_handler.go:16-17. -/
def suggestServer (F : FloatOps ℚ) (ρ : Roaring) (sort : List (PList ρ) → List (PList ρ)) (pf : Bytes → Except Err F64)
    (num : ℚ → Bytes) (reload : World → World → Prop) : Server World where
  fate := RequestFate F ρ sort pf num
  change := reload
  iterates m t := ∃ path raw, parseTarget t = .ok (path, raw) ∧ route m path = .dictList

/-- The spell checker server; it never reloads. -/
def spellServer {S : Type} [LinearOrder S] [Inhabited S] (F : FloatOps S) (real : ℚ → S) (val : LMScore → S)
    (sc : SpellChecker) (pf : Bytes → Except Err F64) : Server Unit where
  fate _ := SpellFate F real val sc pf
  change _ _ := False
  iterates _ _ := False

end Verif.Serve
