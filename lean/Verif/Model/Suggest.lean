import Verif.Model.Metric
import Verif.Model.TopK
import Verif.Model.Merger
import Verif.Model.Index
import Verif.Model.StoreInt64
/-
Model of pkg/suggest/suggester.go (`Suggest`, with its worker goroutines), of the fuzzy collector and its manager
(pkg/suggest/collector.go:117-191) and of pkg/suggest/search.go.

The goroutines are a transition system: every transition is one shared-memory or channel operation (or a run of
operations on goroutine-local data). A schedule is any sequence of transitions. Sequential consistency is assumed
(the shared variables are accessed atomically or under the mutex).
-/
namespace Verif
open Spec (Candidate CollectRes)

section
variable {S : Type} [LinearOrder S]

/-- `fuzzyCollector.Collect` with the scorer `score` (a function of the overlap); the state of the collector is its
queue — pkg/suggest/collector.go:117-128, scorer.go:29-31. A panic of the queue aborts the search. -/
def fuzzyCollect (score : Nat → S) (q : TopKQueue S) (item : MergeCandidate) : TopKQueue S × CollectRes Err :=
  match q.add item.position (score item.overlap) with
  | .ok q' => (q', .ok)
  | .error e => (q, .err e)

/-- `FuzzyCollectorManager.GetLowestScore`; `none` is `-Inf` — pkg/suggest/collector.go:185-191. -/
def managerLowest (q : TopKQueue S) : Option S := if !q.isFull then none else q.getLowestScore

/-- What the suggester needs of the opened index: the number of per-cardinality indices and, for a cardinality, the
search for the given query on that index. `Env` stands for everything the search may additionally depend on (pooled
posting-list objects). Arguments of a search: environment, collector function, threshold, collector state —
pkg/index/indices.go:8-38, searcher.go:28-65. -/
structure SegIndices (κ Env : Type) where
  size : Nat
  get : Int → Option (Env → (κ → MergeCandidate → κ × CollectRes Err) → Int → κ → κ × Option Err)

/-- The indices and the searcher that the builder hands to the suggester and to the autocomplete: the opened index with
CPMerge; `sort` is the (unstable) sort used by the merger, the environment are the pooled posting lists —
pkg/suggest/ngram_index_builder.go:60-83, pkg/index/indices.go:27-38. -/
def builtIndices {κ : Type} (ρ : Roaring) (sort : List (PList ρ) → List (PList ρ)) (oi : OpenIndex) (q : List String) :
    SegIndices κ (Nat → SkipList) where
  size := oi.size
  get b :=
    if 0 ≤ b then
      (oi.table b.toNat).map fun tab env collect T k => search ρ (cpMerge collect sort) oi.docs env tab q T k
    else none

/-- Where a worker goroutine is — pkg/suggest/suggester.go:70-110. -/
inductive Worker (S : Type) where
  | idle                            -- at `range sizeCh`
  | got (b : Int)                   -- received `sizeB`, before `similarityHolder.Load()`
  | loaded (b : Int) (alpha : S)    -- after the `Load()` in line 73
  | found (b : Int) (q : TopKQueue S) -- search finished, before `locker.Lock()`
  | merged                          -- holds the lock, `Collect` done
  | raised                          -- holds the lock, similarity updated
  | done (err : Option Err)         -- returned

/-- The shared state of one `Suggest` call. -/
structure SState (S : Type) where
  toSend : List Int     -- what the producer loop still has to send
  closed : Bool         -- `close(sizeCh)` executed
  chan : List Int       -- contents of `sizeCh`
  cap : Nat             -- capacity of `sizeCh`
  alpha : S             -- `similarityHolder`
  queue : TopKQueue S   -- `collectorManager.globalQueue`
  locked : Bool         -- `locker`
  workers : List (Worker S)
  panicked : Option Err -- a panicking goroutine takes the process down

/-- The producer loop: `for i, j := sizeA, sizeA+1; i >= bMin || j <= bMax; i, j = i-1, j+1 { … }`: the values sent,
in order — pkg/suggest/suggester.go:112-121. -/
def sendLoop (bMin bMax i j : Int) : List Int :=
  if i ≥ bMin ∨ j ≤ bMax then
    (if i ≥ bMin then [i] else []) ++ (if j ≤ bMax then [j] else []) ++ sendLoop bMin bMax (i - 1) (j + 1)
  else []
termination_by (i - bMin + 1).toNat + (bMax - j + 1).toNat
decreasing_by omega

/-- The same loop with the 64-bit arithmetic of Go, cut after `n` rounds (`none`: it has not ended by then) —
pkg/suggest/suggester.go:112-121. -/
def sendLoop64 (bMin bMax : Int) : Nat → Int → Int → Option (List Int)
  | 0, _, _ => none
  | n + 1, i, j =>
    if i ≥ bMin ∨ j ≤ bMax then
      (sendLoop64 bMin bMax n (wrap64 (i - 1)) (wrap64 (j + 1))).map fun rest =>
        (if i ≥ bMin then [i] else []) ++ (if j ≤ bMax then [j] else []) ++ rest
    else some []

/-- The static data of one `Suggest` call. -/
structure SConf (S Env : Type) where
  F : FloatOps S
  metric : Metric S
  indices : SegIndices (TopKQueue S) Env
  sizeA : Nat         -- `len(tokens)`
  similarity : S
  topK : Int

namespace SConf
variable {Env : Type} (c : SConf S Env)

omit [LinearOrder S] in
/-- `bMin` — pkg/suggest/suggester.go:54. -/
def bMin : Int := c.metric.minY c.similarity c.sizeA

omit [LinearOrder S] in
/-- `bMax`, clipped — pkg/suggest/suggester.go:54-59. -/
def bMax : Int :=
  if c.metric.maxY c.similarity c.sizeA ≥ c.indices.size then (c.indices.size : Int) - 1
  else c.metric.maxY c.similarity c.sizeA

omit [LinearOrder S] in
/-- Up to the point where the workers are started; `make(chan int, n)` panics for negative `n` —
pkg/suggest/suggester.go:46-70. Only for `len(tokens) ≠ 0`. -/
def start [Inhabited S] : Except Err (SState S) :=
  if c.bMax - c.bMin + 1 < 0 then .error .panicMake
  else
    match TopKQueue.new c.topK with
    | .error e => .error e
    | .ok q => .ok
      { toSend := sendLoop c.bMin c.bMax c.sizeA (c.sizeA + 1), closed := false, chan := [],
        cap := (c.bMax - c.bMin + 1).toNat, alpha := c.similarity, queue := q, locked := false,
        workers := List.replicate (min 5 (c.bMax - c.bMin + 1).toNat) .idle, panicked := none }

omit [LinearOrder S] in
/-- The producer loop never ends, so that `sizeCh` is never closed and `Suggest` never returns, whatever the workers do —
pkg/suggest/suggester.go:112-128. -/
def Endless : Prop := ∀ n, sendLoop64 c.bMin c.bMax n c.sizeA (c.sizeA + 1) = none

/-- `threshold` for the similarity a worker has loaded — pkg/suggest/suggester.go:73. -/
def thr (alpha : S) (b : Int) : Int := c.metric.threshold alpha c.sizeA b

/-- The `continue` cases — pkg/suggest/suggester.go:76-84. -/
def skips (alpha : S) (b : Int) : Prop :=
  c.thr alpha b = 0 ∨ c.thr alpha b > b ∨ c.thr alpha b > c.sizeA ∨ c.indices.get b = none

/-- The scorer of the segment `b` — pkg/suggest/suggester.go:87, scorer.go:29-31. -/
def score (b : Int) (overlap : Nat) : S := metricScore c.F c.metric overlap c.sizeA b

/-- The lower bound after a commit — pkg/suggest/suggester.go:101-103. -/
def raise (alpha : S) (q : TopKQueue S) : S :=
  match managerLowest q with
  | some l => if alpha < l then l else alpha
  | none => alpha

variable [Inhabited S]

/-- The transitions. In `send`, `recv`, … the process has not panicked. -/
inductive Step : SState S → SState S → Prop
  /-- `sizeCh <- x` into the buffer (suggester.go:113-121) -/
  | send {s b rest} : s.panicked = none → s.toSend = b :: rest → s.chan.length < s.cap →
      Step s { s with toSend := rest, chan := s.chan ++ [b] }
  /-- `sizeCh <- x` directly to a waiting receiver (unbuffered channel) -/
  | handoff {s b rest} {i : Nat} : s.panicked = none → s.toSend = b :: rest → s.chan = [] →
      s.workers[i]? = some .idle →
      Step s { s with toSend := rest, workers := s.workers.set i (.got b) }
  /-- `close(sizeCh)` (suggester.go:124) -/
  | close {s} : s.panicked = none → s.toSend = [] → s.closed = false → Step s { s with closed := true }
  /-- receive (suggester.go:72) -/
  | recv {s b rest} {i : Nat} : s.panicked = none → s.chan = b :: rest → s.workers[i]? = some .idle →
      Step s { s with chan := rest, workers := s.workers.set i (.got b) }
  /-- end of the `range` loop (suggester.go:72, 108) -/
  | exit {s} {i : Nat} : s.panicked = none → s.chan = [] → s.closed = true → s.workers[i]? = some .idle →
      Step s { s with workers := s.workers.set i (.done none) }
  /-- `similarityHolder.Load()` (suggester.go:73) -/
  | load {s b} {i : Nat} : s.panicked = none → s.workers[i]? = some (.got b) →
      Step s { s with workers := s.workers.set i (.loaded b s.alpha) }
  /-- `continue` (suggester.go:76-84) -/
  | skip {s b a} {i : Nat} : s.panicked = none → s.workers[i]? = some (.loaded b a) → c.skips a b →
      Step s { s with workers := s.workers.set i .idle }
  /-- successful search (suggester.go:86-91) -/
  | search {s b a f q0 q'} {i : Nat} (env : Env) : s.panicked = none → s.workers[i]? = some (.loaded b a) →
      ¬ c.skips a b → c.indices.get b = some f → TopKQueue.new c.topK = .ok q0 →
      f env (fuzzyCollect (c.score b)) (c.thr a b) q0 = (q', none) →
      Step s { s with workers := s.workers.set i (.found b q') }
  /-- failed search (suggester.go:89-91) -/
  | searchErr {s b a f q0 q' e} {i : Nat} (env : Env) : s.panicked = none → s.workers[i]? = some (.loaded b a) →
      ¬ c.skips a b → c.indices.get b = some f → TopKQueue.new c.topK = .ok q0 →
      f env (fuzzyCollect (c.score b)) (c.thr a b) q0 = (q', some e) → e.isPanic = false →
      Step s { s with workers := s.workers.set i (.done (some e)) }
  /-- panic during the search -/
  | searchPanic {s b a f q0 q' e} {i : Nat} (env : Env) : s.panicked = none → s.workers[i]? = some (.loaded b a) →
      ¬ c.skips a b → c.indices.get b = some f → TopKQueue.new c.topK = .ok q0 →
      f env (fuzzyCollect (c.score b)) (c.thr a b) q0 = (q', some e) → e.isPanic = true →
      Step s { s with panicked := some e }
  /-- `locker.Lock()` and `collectorManager.Collect(collector)` (suggester.go:93-99, collector.go:165-177) -/
  | commit {s b q g} {i : Nat} : s.panicked = none → s.workers[i]? = some (.found b q) → s.locked = false →
      s.queue.merge q = .ok g →
      Step s { s with queue := g, locked := true, workers := s.workers.set i .merged }
  /-- panic in `Collect` -/
  | commitPanic {s b q e} {i : Nat} : s.panicked = none → s.workers[i]? = some (.found b q) → s.locked = false →
      s.queue.merge q = .error e → Step s { s with panicked := some e }
  /-- the conditional `similarityHolder.Store` (suggester.go:101-103) -/
  | raise {s} {i : Nat} : s.panicked = none → s.workers[i]? = some .merged →
      Step s { s with alpha := raise s.alpha s.queue, workers := s.workers.set i .raised }
  /-- `locker.Unlock()` (suggester.go:105) -/
  | unlock {s} {i : Nat} : s.panicked = none → s.workers[i]? = some .raised →
      Step s { s with locked := false, workers := s.workers.set i .idle }

/-- States reachable from the start of the call under some schedule. -/
inductive Reachable : SState S → Prop
  | start {s} : c.start = .ok s → Reachable s
  | step {s s'} : Reachable s → c.Step s s' → Reachable s'

end SConf

/-- `workerPool.Wait()` can return: the channel is closed and all workers have returned — suggester.go:124-128. -/
def SState.final (s : SState S) : Prop :=
  s.panicked = none ∧ s.closed = true ∧ ∀ w ∈ s.workers, ∃ e, w = .done e

omit [LinearOrder S] in
/-- The error returned by a worker, if any — pkg/suggest/suggester.go:89-99. -/
def Worker.err? : Worker S → Option Err
  | .done e => e
  | _ => none

/-- The result of the call in a final state (errgroup keeps one of the errors) — suggester.go:126-130. -/
def SState.result (s : SState S) : Except Err (List (Candidate S)) :=
  match s.workers.filterMap Worker.err? with
  | e :: _ => .error e
  | [] => .ok s.queue.getCandidates.1

/-- `Suggest` returns the value `r`: either the query has no tokens, or some schedule reaches a state in which all
goroutines have ended — pkg/suggest/suggester.go:47-51, 126-131. -/
inductive SuggestReturns [Inhabited S] {Env : Type} (c : SConf S Env) : Except Err (List (Candidate S)) → Prop
  | empty : c.sizeA = 0 → SuggestReturns c (.ok [])
  | run {s} : c.sizeA ≠ 0 → c.Reachable s → s.final → SuggestReturns c s.result

/-- `Suggest` panics under some schedule (`make(chan int, n)` with a negative `n`, or in a goroutine). -/
inductive SuggestPanics [Inhabited S] {Env : Type} (c : SConf S Env) : Prop
  | start {e} : c.sizeA ≠ 0 → c.start = .error e → SuggestPanics c
  | run {s} : c.sizeA ≠ 0 → c.Reachable s → s.panicked ≠ none → SuggestPanics c

/-- `Suggest` blocks for ever under some schedule: a state that is not final is reached in which nothing can happen. -/
def SuggestBlocks [Inhabited S] {Env : Type} (c : SConf S Env) : Prop :=
  c.sizeA ≠ 0 ∧ ∃ s, c.Reachable s ∧ s.panicked = none ∧ ¬ s.final ∧ ∀ s', ¬ c.Step s s'

/-- The call of `Suggest` on the opened index `oi` for a query with the tokens `q` and `FuzzyCollectorManager` with
`topK` — pkg/suggest/ngram_index_builder.go:60-83, collector.go:134-155. -/
def suggestCall (F : FloatOps S) (M : Metric S) (ρ : Roaring) (sort : List (PList ρ) → List (PList ρ)) (oi : OpenIndex)
    (q : List String) (similarity : S) (topK : Int) : SConf S (Nat → SkipList) where
  F := F
  metric := M
  indices := builtIndices ρ sort oi q
  sizeA := q.length
  similarity := similarity
  topK := topK

/-- The call with the similarity NaN; `metric F` is the metric with the float64 operations `F`. -/
def nanCall (F : FloatOps S) (metric : FloatOps (WithTop S) → Metric (WithTop S)) (ρ : Roaring) (sort : List (PList ρ) → List (PList ρ))
    (oi : OpenIndex) (q : List String) (topK : Int) : SConf (WithTop S) (Nat → SkipList) :=
  suggestCall (nanOps F) (metric (nanOps F)) ρ sort oi q ⊤ topK

/-- A candidate among those of a search with the similarity NaN. -/
def Candidate.withNaN (c : Candidate S) : Candidate (WithTop S) := ⟨c.key, (c.score : S)⟩

end
/-! ### SearchConfig -/

/-- A float64 as seen by comparisons: NaN, the infinities, or a number. -/
inductive F64 where
  | nan | negInf | posInf
  | num (x : ℚ)
  deriving DecidableEq

namespace F64

/-- `x <= y`: false if one of them is NaN. -/
def le : F64 → F64 → Bool
  | nan, _ => false
  | _, nan => false
  | negInf, _ => true
  | _, posInf => true
  | num x, num y => decide (x ≤ y)
  | _, _ => false

/-- `x > y`: false if one of them is NaN. -/
def gt : F64 → F64 → Bool
  | nan, _ => false
  | _, nan => false
  | x, y => !le x y

end F64

/-- `SearchConfig` — pkg/suggest/search.go:10-15. -/
structure SearchConfig (M : Type) where
  query : String
  topK : Int
  metric : M
  similarity : F64

/-- `NewSearchConfig` — pkg/suggest/search.go:18-33. -/
def newSearchConfig {M : Type} (query : String) (topK : Int) (metric : M) (similarity : F64) :
    Except Err (SearchConfig M) :=
  if topK ≤ 0 then .error (.other "topK should be greater or equal to 1")
  else if similarity.le (.num 0) || similarity.gt (.num 1) then .error (.other "similarity shouble be in (0.0, 1.0]")
  else .ok ⟨query, topK, metric, similarity⟩

end Verif
