import Verif.Model.Serve
/-!
The servers on a machine with finite memory: what `make` does with a huge capacity.

`NewTopKQueue(topK)` allocates `topK` candidates of 16 bytes at once (pkg/suggest/topk.go:72-77; `Candidate` is an uint32 and a
float64, pkg/suggest/collector.go:12-17). By the Go language specification and runtime/slice.go, `make` panics when the size exceeds
the address space of the runtime (`maxAlloc`, 2^48 on linux/amd64); below that, memory that the operating system refuses is a fatal
error ("out of memory", runtime/malloc.go) that no `recover` catches: the process ends, whatever the goroutine.

Only the first queue of a call is looked at (it is created in the goroutine of the request, before any worker): `available` is meant as a
size up to which all the queues of a request can be allocated. All other allocations (answers, posting lists, the channel, whose
capacity is bounded by the number of lengths in the index) are not limited here.
-/
namespace Verif.Memory
open Verif Verif.Wire Verif.Serve

/-- The limits of the machine, in bytes. -/
structure Machine where
  maxAlloc : Nat
  available : Nat

/-- The size of `make(topKHeap, 0, topK)` — pkg/suggest/topk.go:29, 75, collector.go:12-17. -/
def queueSize (topK : Int) : Int := 16 * topK

section
variable (F : FloatOps ℚ) (ρ : Roaring) (sort : List (PList ρ) → List (PList ρ)) (pf : Bytes → Except Err F64)

/-- The request reaches `NewTopKQueue(topK)` in the suggest server: the parameters are accepted, the dictionary is published, and (for a
fuzzy search) the query has a term and the channel could be made — pkg/suggest/suggester.go:46-64, autocomplete.go:40-44,
collector.go:76-80, 142-149, internal/suggest/api/suggest_handler.go:43-76, autocomplete_handler.go:18-52. -/
inductive SuggestQueue (w : World) (method : Method) (target : Bytes) : Int → Prop
  | suggest {path raw dict query conf x p q} : parseTarget target = .ok (path, raw) → route method path = .suggest dict query →
      buildSearchConfig pf (formValue raw) (goString query) = .ok conf → conf.similarity = .num x → w.published dict = some p →
      p.suggestTok query = .ok q → q ≠ [] →
      0 ≤ (suggestCall F (conf.metric.metric F) ρ sort p.index (q.map goString) x conf.topK).bMax -
        (suggestCall F (conf.metric.metric F) ρ sort p.index (q.map goString) x conf.topK).bMin + 1 →
      SuggestQueue w method target conf.topK
  | suggestNaN {path raw dict query conf p q} : parseTarget target = .ok (path, raw) → route method path = .suggest dict query →
      buildSearchConfig pf (formValue raw) (goString query) = .ok conf → conf.similarity = .nan → w.published dict = some p →
      p.suggestTok query = .ok q → q ≠ [] →
      0 ≤ (nanCall F conf.metric.metric ρ sort p.index (q.map goString) conf.topK).bMax -
        (nanCall F conf.metric.metric ρ sort p.index (q.map goString) conf.topK).bMin + 1 →
      SuggestQueue w method target conf.topK
  | complete {path raw dict query limit p q} : parseTarget target = .ok (path, raw) → route method path = .autocomplete dict query →
      autocompleteArgs (formValue raw) = .ok limit → w.published dict = some p → p.completeTok query = .ok q →
      SuggestQueue w method target limit

end

section
variable (sc : SpellChecker) (pf : Bytes → Except Err F64)

/-- The request reaches `NewTopKQueue(topK)` in the spell checker server: the parameters are accepted, and the query has a word —
pkg/spellchecker/spellchecker.go:40-60, internal/spellchecker/api/predict_handler.go:19-59. -/
inductive PredictQueue (method : Method) (target : Bytes) : Int → Prop
  | predict {path raw query topK x seq word next} : parseTarget target = .ok (path, raw) → routeSpell method path = .predict query →
      predictArgs pf (formValue raw) = .ok (topK, x) → sc.tokenize query = seq ++ [word] → spellScorer sc seq = .ok next →
      PredictQueue method target topK

end

/-- The server on the machine; `needs w m t k`: the request allocates a queue for `k` candidates — runtime/slice.go (`makeslice`),
runtime/malloc.go. -/
def onMachine {W : Type} (M : Machine) (needs : W → Method → Bytes → Int → Prop) (K : Server W) : Server W where
  fate w m t f :=
    (∃ k, needs w m t k ∧ M.maxAlloc < queueSize k ∧ f = .aborted) ∨
    (∃ k, needs w m t k ∧ M.available < queueSize k ∧ queueSize k ≤ M.maxAlloc ∧ f = .fatal) ∨
    ((∀ k, needs w m t k → queueSize k ≤ M.available ∧ queueSize k ≤ M.maxAlloc) ∧ K.fate w m t f)
  change := K.change
  iterates := K.iterates

/-- The suggest server on the machine. -/
def suggestServerOn (M : Machine) (F : FloatOps ℚ) (ρ : Roaring) (sort : List (PList ρ) → List (PList ρ)) (pf : Bytes → Except Err F64)
    (num : ℚ → Bytes) (reload : World → World → Prop) : Server World :=
  onMachine M (SuggestQueue F ρ sort pf) (suggestServer F ρ sort pf num reload)

/-- The spell checker server on the machine. -/
def spellServerOn (M : Machine) {S : Type} [LinearOrder S] [Inhabited S] (F : FloatOps S) (real : ℚ → S) (val : LMScore → S)
    (sc : SpellChecker) (pf : Bytes → Except Err F64) : Server Unit :=
  onMachine M (fun _ => PredictQueue sc pf) (spellServer F real val sc pf)

end Verif.Memory
