import Verif.Model.Suggest
/-
Model of pkg/suggest/autocomplete.go (`Autocomplete`, with its goroutines) and of the first-k collector and its manager
(pkg/suggest/collector.go:48-115). Conventions as in Model/Suggest.lean. Autocomplete takes any collector manager; `AConf`
describes one by its operations.
-/
namespace Verif
open Spec (Candidate CollectRes)

/-- `firstKCollector.Collect`; the state are the items — pkg/suggest/collector.go:54-61. -/
def firstKCollect (limit : Int) (items : List MergeCandidate) (item : MergeCandidate) :
    List MergeCandidate × CollectRes Err :=
  if limit = (items.length : Int) then (items, .terminated) else (items ++ [item], .ok)

/-- The candidate that is offered for an item: the score is `-float64(position)`, exact because a position is an
uint32 — pkg/suggest/collector.go:104-106. -/
def firstKCandidate (m : MergeCandidate) : Candidate ℚ := ⟨m.position, -(m.position : ℚ)⟩

/-- `FirstKCollectorManager.Collect` — pkg/suggest/collector.go:96-110. -/
def firstKMerge (g : TopKQueue ℚ) (items : List MergeCandidate) : Except Err (TopKQueue ℚ) :=
  g.addAll (items.map firstKCandidate)

/-- A goroutine of the autocomplete; `κ` is the state of a collector — pkg/suggest/autocomplete.go:56-69. -/
inductive AWorker (κ : Type) where
  | started (b : Nat)                 -- before or in `Search`
  | found (b : Nat) (items : κ)       -- before `locker.Lock()`
  | done (err : Option Err)

/-- The shared state of one `Autocomplete` call. -/
structure AState (κ S : Type) where
  toSpawn : List Nat        -- sizes the loop has still to visit
  workers : List (AWorker κ)
  queue : TopKQueue S
  panicked : Option Err

/-- The static data of one `Autocomplete` call: the indices, `len(terms)`, and the collector manager: the capacity of its
queue, a new collector (`Create`), `Collect` of the collector, and `Collect` of the manager for one collector. -/
structure AConf (κ S Env : Type) where
  indices : SegIndices κ Env
  termsLen : Nat
  limit : Int
  create : κ
  collect : κ → MergeCandidate → κ × CollectRes Err
  merge : TopKQueue S → κ → Except Err (TopKQueue S)

namespace AConf
variable {κ S Env : Type} [LinearOrder S] [Inhabited S] (c : AConf κ S Env)

omit [LinearOrder S] in
/-- Up to the loop; the manager's queue is created — pkg/suggest/autocomplete.go:41-47, collector.go:76-80. -/
def start : Except Err (AState κ S) :=
  match TopKQueue.new c.limit with
  | .error e => .error e
  | .ok q => .ok ⟨(List.range c.indices.size).drop c.termsLen, [], q, none⟩

/-- The transitions. -/
inductive Step : AState κ S → AState κ S → Prop
  /-- no index for the size: `continue` (autocomplete.go:50-52) -/
  | skip {s : AState κ S} {b : Nat} {rest : List Nat} : s.panicked = none → s.toSpawn = b :: rest → c.indices.get b = none →
      Step s { s with toSpawn := rest }
  /-- start of a goroutine (autocomplete.go:54-56) -/
  | spawn {s : AState κ S} {b : Nat} {rest : List Nat} : s.panicked = none → s.toSpawn = b :: rest → c.indices.get b ≠ none →
      Step s { s with toSpawn := rest, workers := s.workers ++ [.started b] }
  /-- successful search (autocomplete.go:57) -/
  | search {s : AState κ S} {b : Nat} {f items} {i : Nat} (env : Env) : s.panicked = none → s.workers[i]? = some (.started b) →
      c.indices.get b = some f → f env c.collect c.termsLen c.create = (items, none) →
      Step s { s with workers := s.workers.set i (.found b items) }
  /-- failed search (autocomplete.go:57-59) -/
  | searchErr {s : AState κ S} {b : Nat} {f items e} {i : Nat} (env : Env) : s.panicked = none → s.workers[i]? = some (.started b) →
      c.indices.get b = some f → f env c.collect c.termsLen c.create = (items, some e) → e.isPanic = false →
      Step s { s with workers := s.workers.set i (.done (some e)) }
  /-- panic in the search -/
  | searchPanic {s : AState κ S} {b : Nat} {f items e} {i : Nat} (env : Env) : s.panicked = none → s.workers[i]? = some (.started b) →
      c.indices.get b = some f → f env c.collect c.termsLen c.create = (items, some e) → e.isPanic = true →
      Step s { s with panicked := some e }
  /-- `Collect` under the lock (autocomplete.go:61-68) -/
  | commit {s : AState κ S} {b : Nat} {items g} {i : Nat} : s.panicked = none → s.workers[i]? = some (.found b items) →
      c.merge s.queue items = .ok g →
      Step s { s with queue := g, workers := s.workers.set i (.done none) }
  /-- panic in `Collect` -/
  | commitPanic {s : AState κ S} {b : Nat} {items e} {i : Nat} : s.panicked = none → s.workers[i]? = some (.found b items) →
      c.merge s.queue items = .error e → Step s { s with panicked := some e }

/-- States reachable under some schedule. -/
inductive Reachable : AState κ S → Prop
  | start {s} : c.start = .ok s → Reachable s
  | step {s s'} : Reachable s → c.Step s s' → Reachable s'

end AConf

section
variable {κ S : Type}

/-- `workerPool.Wait()` can return — pkg/suggest/autocomplete.go:72. -/
def AState.final (s : AState κ S) : Prop := s.panicked = none ∧ s.toSpawn = [] ∧ ∀ w ∈ s.workers, ∃ e, w = .done e

/-- The error returned by a goroutine, if any. -/
def AWorker.err? : AWorker κ → Option Err
  | .done e => e
  | _ => none

variable [LinearOrder S]

/-- The result in a final state — pkg/suggest/autocomplete.go:72-76. -/
def AState.result (s : AState κ S) : Except Err (List (Candidate S)) :=
  match s.workers.filterMap AWorker.err? with
  | e :: _ => .error e
  | [] => .ok s.queue.getCandidates.1

variable [Inhabited S]

/-- `Autocomplete` returns `r` under some schedule. -/
def AutocompleteReturns {Env : Type} (c : AConf κ S Env) (r : Except Err (List (Candidate S))) : Prop :=
  ∃ s, c.Reachable s ∧ s.final ∧ r = s.result

/-- `Autocomplete` panics under some schedule. -/
def AutocompletePanics {Env : Type} (c : AConf κ S Env) : Prop :=
  (∃ e, c.start = .error e) ∨ ∃ s, c.Reachable s ∧ s.panicked ≠ none

/-- `Autocomplete` blocks for ever under some schedule. -/
def AutocompleteBlocks {Env : Type} (c : AConf κ S Env) : Prop :=
  ∃ s, c.Reachable s ∧ s.panicked = none ∧ ¬ s.final ∧ ∀ s', ¬ c.Step s s'

end

/-- The call on the opened index `oi` for a query with the tokens `q` and the first-k collector manager —
pkg/suggest/ngram_index_builder.go:73-77, collector.go:76-93. -/
def autocompleteCall (ρ : Roaring) (sort : List (PList ρ) → List (PList ρ)) (oi : OpenIndex) (q : List String)
    (limit : Int) : AConf (List MergeCandidate) ℚ (Nat → SkipList) where
  indices := builtIndices ρ sort oi q
  termsLen := q.length
  limit := limit
  create := []
  collect := firstKCollect limit
  merge := firstKMerge

end Verif
