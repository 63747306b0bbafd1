import Verif.Model.Store
import Mathlib.Logic.Relation
/-
Model of the life of the suggest server process: `App.Run`, `listenToSystemSignals` (internal/suggest/api/app.go) and
`Server.Run` (internal/http/http_server.go), with the operating system's signals and net/http's `ListenAndServe`/`Shutdown`
by their documentation:
* a signal without a channel registered for it has its default effect: SIGHUP, SIGINT and SIGTERM end the process; with a
  channel it is put in the channel's buffer, and dropped if the buffer is full (os/signal: "will not block sending to c");
* `ListenAndServe` returns `ErrServerClosed` at once when `Shutdown` has been called; `Shutdown` itself waits for the requests
  in progress; when `main` returns the process ends, whatever its goroutines do.

Simplifications: a reload (`reindexJob`) is one step for its beginning and one for its end (its inside: Model/App.lean); reloads
through HTTP are requests; failures of the operating system other than the choice of `configure` are not modelled. Requests are
numbered in the order they are accepted.
-/
namespace Verif

/-- Where the main goroutine is in `App.Run`. -/
inductive MainAt where
  | start      -- before `writePIDFile` (app.go:41)
  | configure  -- the PID file is written, `reindexJob()` builds the indexes (app.go:50)
  | spawn      -- before `go func() { a.listenToSystemSignals(…) }` (app.go:56)
  | listen     -- before `srv.ListenAndServe()` (http_server.go:41)
  | serving    -- inside `ListenAndServe`
  | exited (ok : Bool) -- `Run` and `main` have returned; the exit status is 0?
  | killed     -- ended by a signal
deriving DecidableEq

/-- Where the goroutine of `listenToSystemSignals` is — internal/suggest/api/app.go:128-145. -/
inductive ListenerAt where
  | none       -- not started
  | started    -- before the first `signal.Notify` (line 132)
  | hupSet     -- before the second `signal.Notify` (line 133)
  | waiting    -- in `select` (line 136)
  | reloading  -- in `reindexFn()` (line 139)
deriving DecidableEq

/-- What happens to a request. -/
inductive RequestState where
  | active
  | answered
  | cut        -- the process ended before the answer
deriving DecidableEq

/-- The process. `hup`, `term`: a signal is in the buffer (of size 1) of the channel; `cancelled`: the context is cancelled;
`shutdown`: `srv.Shutdown` has been called; `files`: the version of the index files; `reloads`: the versions that were current
when the reloads by signal began. -/
structure ServerState where
  main : MainAt
  listener : ListenerAt
  pidFile : Bool
  hup : Bool
  term : Bool
  cancelled : Bool
  shutdown : Bool
  requests : List RequestState
  files : Nat
  reloads : List Nat
deriving DecidableEq

/-- Is the process running? -/
def ServerState.running (s : ServerState) : Bool :=
  match s.main with
  | .exited _ => false
  | .killed => false
  | _ => true

/-- Is a channel registered for SIGHUP / for SIGINT and SIGTERM? — app.go:132-133. -/
def ServerState.catchesHup (s : ServerState) : Bool :=
  match s.listener with
  | .none => false
  | .started => false
  | _ => true

@[inherit_doc ServerState.catchesHup]
def ServerState.catchesTerm (s : ServerState) : Bool :=
  match s.listener with
  | .none => false
  | .started => false
  | .hupSet => false
  | _ => true

/-- The process ends: the requests in progress are cut. -/
def cutRequests (rs : List RequestState) : List RequestState := rs.map fun r => if r = .active then .cut else r

/-- A new process. -/
def serverInit (v : Nat) : ServerState := ⟨.start, .none, false, false, false, false, false, [], v, []⟩

/-- Who acts: the goroutines of the process, or the world (signals, clients, other processes that change files, the result of
building the indexes and of opening the port). -/
inductive ServerActor where
  | process
  | world
deriving DecidableEq

/-- The steps of the process and its environment. -/
inductive ServerStep : ServerActor → ServerState → ServerState → Prop
  /-- `writePIDFile` (app.go:41-43) -/
  | writePid {s : ServerState} : s.main = .start → ServerStep .process s { s with main := .configure, pidFile := true }
  /-- the first `reindexJob()` succeeds (app.go:50) -/
  | configured {s : ServerState} : s.main = .configure → ServerStep .process s { s with main := .spawn }
  /-- … or fails: `Run` returns an error, the exit status is 1 (app.go:50-52, cmd/suggest/cmd/root.go:31-35) -/
  | notConfigured {s : ServerState} : s.main = .configure → ServerStep .world s { s with main := .exited false }
  /-- the goroutine for the signals is started (app.go:56-67) -/
  | spawn {s : ServerState} : s.main = .spawn → ServerStep .process s { s with main := .listen, listener := .started }
  /-- `ListenAndServe` (http_server.go:41); if `Shutdown` has been called it returns `ErrServerClosed`, see `closed` -/
  | listen {s : ServerState} : s.main = .listen → s.shutdown = false → ServerStep .process s { s with main := .serving }
  /-- the port cannot be used: the error is returned (http_server.go:47) -/
  | noPort {s : ServerState} : s.main = .listen → s.shutdown = false → ServerStep .world s { s with main := .exited false, requests := cutRequests s.requests }
  /-- `ListenAndServe` returns `ErrServerClosed` after `Shutdown` was called; `Run` returns nil, the process ends
  (http_server.go:42-45, app.go:85) -/
  | closed {s : ServerState} : s.main = .listen ∨ s.main = .serving → s.shutdown = true →
      ServerStep .process s { s with main := .exited true, requests := cutRequests s.requests }
  /-- a request is accepted -/
  | accept {s : ServerState} : s.main = .serving → s.shutdown = false → ServerStep .world s { s with requests := s.requests ++ [.active] }
  /-- a request is answered -/
  | answer {s : ServerState} {i : Nat} : s.running = true → s.requests[i]? = some .active →
      ServerStep .process s { s with requests := s.requests.set i .answered }
  /-- `<-ctx.Done()`, then `srv.Shutdown(…)` is called (http_server.go:33-36) -/
  | shutdown {s : ServerState} : s.running = true → s.main = .listen ∨ s.main = .serving → s.cancelled = true → s.shutdown = false →
      ServerStep .process s { s with shutdown := true }
  /-- `signal.Notify(sighupChan, SIGHUP)` (app.go:132) -/
  | notifyHup {s : ServerState} : s.running = true → s.listener = .started → ServerStep .process s { s with listener := .hupSet }
  /-- `signal.Notify(signalChan, Interrupt, SIGTERM)` (app.go:133) -/
  | notifyTerm {s : ServerState} : s.running = true → s.listener = .hupSet → ServerStep .process s { s with listener := .waiting }
  /-- `<-sighupChan`: the reload begins (app.go:137-139) -/
  | beginReload {s : ServerState} : s.running = true → s.listener = .waiting → s.hup = true →
      ServerStep .process s { s with listener := .reloading, hup := false, reloads := s.reloads ++ [s.files] }
  /-- the reload ends (with or without an error, which is only logged) -/
  | endReload {s : ServerState} : s.running = true → s.listener = .reloading → ServerStep .process s { s with listener := .waiting }
  /-- `<-signalChan`: the context is cancelled (app.go:141-143) -/
  | cancel {s : ServerState} : s.running = true → s.listener = .waiting → s.term = true →
      ServerStep .process s { s with term := false, cancelled := true }
  /-- somebody sends SIGHUP -/
  | sighup {s : ServerState} : s.running = true → s.catchesHup = true → ServerStep .world s { s with hup := true }
  | sighupKills {s : ServerState} : s.running = true → s.catchesHup = false →
      ServerStep .world s { s with main := .killed, requests := cutRequests s.requests }
  /-- somebody sends SIGTERM or SIGINT -/
  | sigterm {s : ServerState} : s.running = true → s.catchesTerm = true → ServerStep .world s { s with term := true }
  | sigtermKills {s : ServerState} : s.running = true → s.catchesTerm = false →
      ServerStep .world s { s with main := .killed, requests := cutRequests s.requests }
  /-- another process changes the index files -/
  | change {s : ServerState} : ServerStep .world s { s with files := s.files + 1 }

/-- A step of anybody. -/
def ServerNext (s s' : ServerState) : Prop := ∃ a, ServerStep a s s'

end Verif
