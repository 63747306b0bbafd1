import Verif.Model.Store
import Mathlib.Logic.Function.Basic
import Mathlib.Logic.Relation
/-
Model of the reloading of indexes by the HTTP application (internal/suggest/api/app.go, reindex_handler.go): any number of
reloads (one per SIGHUP and one per POST /internal/reindex/) may run at the same time on one service, while other processes
change the files. `C` is what is published for one name (index and dictionary).

Simplifications: publishing under the lock is one step (index and dictionary are published together: C35); a build sees the
files as they are at one moment (builds of half-written files: C21, C69); the configuration is read in one step.
-/
namespace Verif

/-- Where a reload is: in the loop of `configureService`, before the next description or between building and publishing;
or it has returned — internal/suggest/api/app.go:110-125. -/
inductive Reload (C : Type) where
  | next (todo : List String)
  | built (name : String) (content : C) (todo : List String)
  | ended (err : Option Err)

/-- The files, what the service serves, and the reloads. `files name` is what building the description `name` from the
present files gives. -/
structure AppState (C : Type) where
  files : String → Except Err C
  served : String → Option C
  reloads : List (Reload C)

/-- Who acts. -/
inductive AppActor where
  | outside          -- another process (the indexer, an editor) changes the files
  | trigger          -- a signal or a request starts a reload
  | reload (i : Nat) -- the i-th reload makes a step

variable {C : Type}

/-- The steps. -/
inductive AppStep : AppActor → AppState C → AppState C → Prop
  | files {s : AppState C} (f : String → Except Err C) : AppStep .outside s { s with files := f }
  /-- `suggest.ReadConfigs` succeeds: the names of the descriptions, in order (app.go:111; reindex_handler.go:11-12) -/
  | start {s : AppState C} (names : List String) : AppStep .trigger s { s with reloads := s.reloads ++ [.next names] }
  /-- `suggest.ReadConfigs` fails (app.go:113-115) -/
  | noConfig {s : AppState C} (e : Err) : AppStep .trigger s { s with reloads := s.reloads ++ [.ended (some e)] }
  /-- `AddIndexByDescription` builds (app.go:118, service.go:35-79) -/
  | build {s : AppState C} {i : Nat} {n : String} {todo : List String} {c : C} : s.reloads[i]? = some (.next (n :: todo)) →
      s.files n = .ok c → AppStep (.reload i) s { s with reloads := s.reloads.set i (.built n c todo) }
  /-- it fails: the loop returns the error (app.go:118-120) -/
  | fail {s : AppState C} {i : Nat} {n : String} {todo : List String} {e : Err} : s.reloads[i]? = some (.next (n :: todo)) →
      s.files n = .error e → AppStep (.reload i) s { s with reloads := s.reloads.set i (.ended (some e)) }
  /-- it publishes (service.go:85-88) and the loop goes on -/
  | publish {s : AppState C} {i : Nat} {n : String} {todo : List String} {c : C} : s.reloads[i]? = some (.built n c todo) →
      AppStep (.reload i) s { s with served := Function.update s.served n (some c), reloads := s.reloads.set i (.next todo) }
  /-- the loop is done: `return nil` (app.go:123) -/
  | finish {s : AppState C} {i : Nat} : s.reloads[i]? = some (.next []) →
      AppStep (.reload i) s { s with reloads := s.reloads.set i (.ended none) }

/-- Some step of anybody. -/
def AppNext (s s' : AppState C) : Prop := ∃ a, AppStep a s s'

/-- A new application (nothing is served, no reload has begun) with some files. -/
def appInit (f : String → Except Err C) : AppState C := ⟨f, fun _ => none, []⟩

/-- `configureService` (the loop alone): build and publish the descriptions in order, stop at the first error —
internal/suggest/api/app.go:110-125. -/
def configureService (files : String → Except Err C) : List String → (String → Option C) → (String → Option C) × Option Err
  | [], served => (served, none)
  | n :: todo, served =>
    match files n with
    | .error e => (served, some e)
    | .ok c => configureService files todo (Function.update served n (some c))

end Verif
