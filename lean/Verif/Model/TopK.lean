import Verif.Model.Heap
import Verif.Model.Store
import Verif.Spec.TopK
/-
Model of pkg/suggest/topk.go and `Candidate.Less` (pkg/suggest/collector.go:12-26).

The heap slice `h` is a backing memory plus a length (see Verif/Model/Heap.lean). Scores are an
arbitrary linear order `S` (float64 without NaN). `math.Inf(-1)` is `none`. Queues are distinct objects
(`q.Merge(q)` is not modelled).
-/
namespace Verif
open Spec (Candidate)

section
variable {S : Type} [LinearOrder S]

/-- `Candidate.Less` — pkg/suggest/collector.go:20-26. -/
def candLess (c o : Candidate S) : Bool :=
  if c.score = o.score then decide (c.key > o.key) else decide (c.score < o.score)

/-- `type topKQueue struct` — pkg/suggest/topk.go:66-69. -/
structure TopKQueue (S : Type) where
  topK : Int
  mem : Nat → Candidate S
  len : Nat

namespace TopKQueue

omit [LinearOrder S] in
/-- `NewTopKQueue`; `make(topKHeap, 0, topK)` panics for a negative capacity —
pkg/suggest/topk.go:72-77. -/
def new [Inhabited S] (topK : Int) : Except Err (TopKQueue S) :=
  if topK < 0 then .error .panicMake else .ok ⟨topK, fun _ => ⟨0, default⟩, 0⟩

omit [LinearOrder S] in
/-- `IsFull` — pkg/suggest/topk.go:122-124. -/
def isFull (c : TopKQueue S) : Bool := (c.len : Int) = c.topK

omit [LinearOrder S] in
/-- `c.h.top()`; panics on the empty heap — pkg/suggest/topk.go:57. -/
def top (c : TopKQueue S) : Except Err (Candidate S) :=
  if c.len = 0 then .error .panicIndex else .ok (c.mem 0)

/-- `CanTakeWithScore` — pkg/suggest/topk.go:113-119. -/
def canTakeWithScore (c : TopKQueue S) (score : S) : Except Err Bool :=
  if !c.isFull then .ok true
  else do
    let t ← c.top
    return decide (t.score ≤ score)

/-- `GetLowestScore`; `none` is `-Inf` — pkg/suggest/topk.go:104-110. -/
def getLowestScore (c : TopKQueue S) : Option S :=
  if c.len > 0 then some (c.mem 0).score else none

/-- `h.updateTop(candidate)` = replace the root, `heap.Fix(&h, 0)` — pkg/suggest/topk.go:60-63. -/
def updateTop (c : TopKQueue S) (x : Candidate S) : TopKQueue S :=
  { c with mem := Heap.fix0 candLess (fun k => if k = 0 then x else c.mem k) c.len }

/-- `heap.Push(&c.h, candidate)` — pkg/suggest/topk.go:44, 93. -/
def push (c : TopKQueue S) (x : Candidate S) : TopKQueue S :=
  { c with
    mem := Heap.push candLess (fun k => if k = c.len then x else c.mem k) c.len
    len := c.len + 1 }

/-- `Add` — pkg/suggest/topk.go:82-101. -/
def add (c : TopKQueue S) (position : Nat) (score : S) : Except Err (TopKQueue S) := do
  if !(← c.canTakeWithScore score) then return c
  let candidate : Candidate S := ⟨position, score⟩
  if (c.len : Int) < c.topK then return c.push candidate
  let t ← c.top
  if candLess t candidate then return c.updateTop candidate
  return c

/-- `for c.h.Len() > 0 { sorted[c.h.Len()-1] = heap.Pop(&c.h) }`. Both `sorted` and the backing memory of
the heap are returned. The index is evaluated before the pop — pkg/suggest/topk.go:132-136. -/
def popAll : (n : Nat) → (mem sorted : Nat → Candidate S) → (Nat → Candidate S) × (Nat → Candidate S)
  | 0, mem, sorted => (mem, sorted)
  | n + 1, mem, sorted =>
    let mem' := Heap.pop candLess mem (n + 1)
    popAll n mem' (fun k => if k = n then mem' n else sorted k)

omit [LinearOrder S] in
/-- `for i := len(c.h)/2 - 1; i >= 0; i-- { c.h.Swap(i, len(c.h)-1-i) }`; the first argument is `i + 1` —
pkg/suggest/topk.go:139-144. -/
def reverseLoop (n : Nat) : Nat → (Nat → Candidate S) → (Nat → Candidate S)
  | 0, mem => mem
  | i + 1, mem => reverseLoop n i (Heap.swap mem i (n - 1 - i))

/-- `GetCandidates`: the result and the queue afterwards — pkg/suggest/topk.go:127-147. -/
def getCandidates (c : TopKQueue S) : List (Candidate S) × TopKQueue S :=
  if c.len = 0 then ([], c)
  else
    let (mem, sorted) := popAll c.len c.mem c.mem
    ((List.range c.len).map sorted, { c with mem := reverseLoop c.len (c.len / 2) mem })

/-- `for _, item := range items { c.Add(item.Key, item.Score) }` — pkg/suggest/topk.go:154-156, 161-163. -/
def addAll (c : TopKQueue S) : List (Candidate S) → Except Err (TopKQueue S)
  | [] => .ok c
  | x :: xs => do (← c.add x.key x.score).addAll xs

/-- `Merge(other)` for another `*topKQueue` — pkg/suggest/topk.go:150-164. -/
def merge (c other : TopKQueue S) : Except Err (TopKQueue S) :=
  c.addAll ((List.range other.len).map other.mem)

omit [LinearOrder S] in
/-- `Reset(topK)`; the old contents of the memory are kept or replaced, which nobody can see —
pkg/suggest/topk.go:167-175. -/
def reset (c : TopKQueue S) (topK : Int) : TopKQueue S := { c with topK := topK, len := 0 }

end TopKQueue
end
end Verif
