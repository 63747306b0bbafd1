import Verif.Model.App
import Verif.Model.Text
/-
Model of how the command `suggest indexer` makes a running server load the new files (cmd/suggest/cmd/indexer.go:43-82, 191-233)
and of the handler of the request (internal/suggest/api/reindex_handler.go), together with the server of Model/App.lean.

Simplifications: the server reads the same names from its configuration whenever this command asks it to reload (`config`; other
reloads may read other names); the signal to the process whose number is in the PID file is received by the server or lost, so the
reload it causes is a step `AppStep.start` at any later time, or none. `msg` is `err.Error()`.
-/
namespace Verif

/-- What `reindexHandler.handle` writes as the body of its answer (`http.Error` ends the text with a line feed) —
internal/suggest/api/reindex_handler.go:11-22. -/
def reindexBody (msg : Err → Bytes) : Option Err → Bytes
  | some e => msg e ++ [10]
  | none => [79, 75]

/-- `tryToSendReindexRequest` behind the reading of the body: `nil` if it is "OK" — cmd/suggest/cmd/indexer.go:228-232. -/
def reindexReply (body : Bytes) : Option Err :=
  if body ≠ [79, 75] then some (.other "something goes wrong with reindex request") else none

/-- Where the command is. -/
inductive NotifyAt where
  | writing                     -- in the loop over the descriptions (lines 49-60)
  | signal                      -- before `if pidPath != ""` (line 69)
  | request                     -- before `if host != ""` (line 75)
  | waiting (i : Nat)           -- waiting for the answer to the request, which runs as the `i`-th reload
  | ended (err : Option Err)

variable {C : Type}

/-- The server with its files, and the command. -/
structure NotifyState (C : Type) where
  app : AppState C
  cmd : NotifyAt

/-- The flags `--pid` and `--host` are given; has a description been chosen (`reIndexed`)? -/
structure NotifyConf where
  pid : Bool
  host : Bool
  reIndexed : Bool

/-- The steps of the server, of other processes and of the command. -/
inductive NotifyStep (K : NotifyConf) (msg : Err → Bytes) (config : List String) : NotifyState C → NotifyState C → Prop
  /-- anybody else: the server (also receiving the signal), other processes -/
  | other {s : NotifyState C} {a : AppActor} {app : AppState C} : AppStep a s.app app → NotifyStep K msg config s { s with app := app }
  /-- an effect of the jobs of the command on the files (line 54) -/
  | write {s : NotifyState C} (f : String → Except Err C) : s.cmd = .writing →
      NotifyStep K msg config s { s with app := { s.app with files := f } }
  /-- a job fails (lines 54-56) -/
  | failed {s : NotifyState C} (e : Err) : s.cmd = .writing → NotifyStep K msg config s { s with cmd := .ended (some e) }
  /-- no description was chosen: success (lines 62-65) -/
  | nothing {s : NotifyState C} : s.cmd = .writing → K.reIndexed = false → NotifyStep K msg config s { s with cmd := .ended none }
  /-- the loop is over -/
  | written {s : NotifyState C} : s.cmd = .writing → K.reIndexed = true → NotifyStep K msg config s { s with cmd := .signal }
  /-- no `--pid`, or the signal is sent: the system call does not wait for the server (lines 69, 198-210) -/
  | signalled {s : NotifyState C} : s.cmd = .signal → NotifyStep K msg config s { s with cmd := .request }
  /-- the PID file cannot be read or parsed, or there is no such process (lines 70-72, 191-211) -/
  | signalFails {s : NotifyState C} (e : Err) : s.cmd = .signal → K.pid = true → NotifyStep K msg config s { s with cmd := .ended (some e) }
  /-- no `--host` (lines 75, 81) -/
  | noHost {s : NotifyState C} : s.cmd = .request → K.host = false → NotifyStep K msg config s { s with cmd := .ended none }
  /-- the request reaches the handler, `reindexJob` reads the configuration (line 215; reindex_handler.go:12; app.go:111) -/
  | post {s : NotifyState C} : s.cmd = .request → K.host = true →
      NotifyStep K msg config s ⟨{ s.app with reloads := s.app.reloads ++ [.next config] }, .waiting s.app.reloads.length⟩
  /-- the same, the configuration cannot be read -/
  | postNoConfig {s : NotifyState C} (e : Err) : s.cmd = .request → K.host = true →
      NotifyStep K msg config s ⟨{ s.app with reloads := s.app.reloads ++ [.ended (some e)] }, .waiting s.app.reloads.length⟩
  /-- the request does not reach the server (lines 217-219) -/
  | postFails {s : NotifyState C} (e : Err) : s.cmd = .request → K.host = true → NotifyStep K msg config s { s with cmd := .ended (some e) }
  /-- `reindexJob` has returned, the answer arrives (reindex_handler.go:12-22; lines 222-233) -/
  | reply {s : NotifyState C} {i : Nat} {err : Option Err} : s.cmd = .waiting i → s.app.reloads[i]? = some (.ended err) →
      NotifyStep K msg config s { s with cmd := .ended (reindexReply (reindexBody msg err)) }
  /-- the connection breaks (lines 217-226) -/
  | broken {s : NotifyState C} {i : Nat} (e : Err) : s.cmd = .waiting i → NotifyStep K msg config s { s with cmd := .ended (some e) }

end Verif
