import Verif.Model.Iterator
import Verif.Model.Heap
import Verif.Spec.Merge
/-
Model of pkg/merger: list_merger.go, collector.go, list_intersector.go, scan_count.go, cp_merge.go,
merge_skip.go, divide_skip.go.

Conventions: all functions are polymorphic in the iterator implementation (`[ListIter σ]`) and in the
collector (`collect : κ → MergeCandidate → κ × CollectRes Err`, `κ` = state of the collector).
A merge returns the final state of the collector and the returned error. Iterator objects in a `Rid`
are distinct objects. Errors wrapped with `fmt.Errorf("…%w")` are represented by the wrapped error.
Loops that consume iterators get an explicit bound on the number of iterations, computed from `Len()`;
running out of it yields `loopBound`, which the theorems exclude.
-/
namespace Verif
open Spec (CollectRes)

/-- Marker for "the iteration bound of the model was reached" (not a Go error). -/
def loopBound : Err := .other "loop bound of the model reached"

/-! ### MergeCandidate — pkg/merger/list_merger.go:32-57, pkg/utils/utils.go:27-39 -/

/-- `type MergeCandidate uint64`. -/
abbrev MergeCandidate := Nat

namespace MergeCandidate

/-- `NewMergeCandidate(position, overlap)` = `utils.Pack` —
pkg/merger/list_merger.go:36-38, pkg/utils/utils.go:28-30. -/
def new (position overlap : Nat) : MergeCandidate :=
  ((position <<< 32) ||| (overlap &&& (2 ^ 32 - 1))) % 2 ^ 64

/-- `Position()` = `utils.UnpackLeft` — pkg/merger/list_merger.go:41-43, pkg/utils/utils.go:33-35. -/
def position (m : MergeCandidate) : Nat := (m >>> 32) % 2 ^ 32

/-- `Overlap()` = `utils.UnpackRight` — pkg/merger/list_merger.go:46-48, pkg/utils/utils.go:38-40. -/
def overlap (m : MergeCandidate) : Nat := m % 2 ^ 32

/-- `MaxOverlap` — pkg/merger/list_merger.go:9. -/
def maxOverlap : Nat := 0xFFFF

/-- `increment()` — pkg/merger/list_merger.go:51-57; panics at the limit. -/
def increment (m : MergeCandidate) : Except Err MergeCandidate :=
  if overlap m = maxOverlap then .error .panicOverflow else .ok ((m + 1) % 2 ^ 64)

end MergeCandidate

section
variable {σ κ : Type} [ListIter σ]
variable (collect : κ → MergeCandidate → κ × CollectRes Err)

/-- Get the current element: `none` when not dereferencable —
pkg/merger/scan_count.go:21-30, cp_merge.go:33-42. -/
def getCurrent (s : σ) : Except Err (Option Nat) :=
  match ListIter.get s with
  | .ok v => .ok (some v)
  | .error .notDereferencable => .ok none
  | .error e => .error e

/-- `if list.HasNext() { current, err = list.Next() … } else { isValid = false }` —
pkg/merger/scan_count.go:39-47. The result `none` stands for `isValid = false`. -/
def advance (s : σ) : Except Err (Option Nat × σ) :=
  if ListIter.hasNext s then
    match ListIter.next s with
    | (.ok v, s') => .ok (some v, s')
    | (.error e, _) => .error e
  else .ok (none, s)

/-- Inner loop of ScanCount/CPMerge: `cs` = `candidates[j:]`, `cur` = `current` (`none` if not
`isValid`); the result is what gets appended to `tmp` — pkg/merger/scan_count.go:35-66,
pkg/merger/cp_merge.go:47-78. -/
def scanLoop : (fuel : Nat) → List MergeCandidate → Option Nat → σ → Except Err (List MergeCandidate)
  | _, [], none, _ => .ok []
  | 0, _, _, _ => .error loopBound
  | k + 1, [], some x, s => do
    let (cur, s') ← advance s
    return MergeCandidate.new x 1 :: (← scanLoop k [] cur s')
  | k + 1, c :: cs, none, s => do
    return c :: (← scanLoop k cs none s)
  | k + 1, c :: cs, some x, s =>
    if c.position > x then do
      let (cur, s') ← advance s
      return MergeCandidate.new x 1 :: (← scanLoop k (c :: cs) cur s')
    else if c.position < x then do
      return c :: (← scanLoop k cs (some x) s)
    else do
      let c' ← c.increment
      let (cur, s') ← advance s
      return c' :: (← scanLoop k cs cur s')

/-- One iteration of the outer loop: merge one list into the candidates —
pkg/merger/scan_count.go:20-69. -/
def scanStep (cands : List MergeCandidate) (s : σ) : Except Err (List MergeCandidate) := do
  let cur ← getCurrent s
  scanLoop (cands.length + ListIter.len s + 1) cands cur s

/-- Outer loop over the lists — pkg/merger/scan_count.go:20-69, cp_merge.go:32-81. -/
def scanLists : List σ → List MergeCandidate → Except Err (List MergeCandidate)
  | [], cands => .ok cands
  | s :: rest, cands => do
    let c' ← scanStep cands s
    scanLists rest c'

/-- Final loop: report the candidates with enough overlap —
pkg/merger/scan_count.go:73-85, cp_merge.go:105-117. -/
def report (threshold : Nat) : κ → List MergeCandidate → κ × Option Err
  | k, [] => (k, none)
  | k, c :: cs =>
    if c.overlap ≥ threshold then
      match collect k c with
      | (k', .ok) => report threshold k' cs
      | (k', .terminated) => (k', none)
      | (k', .err e) => (k', some e)
    else report threshold k cs

/-- `scanCount.Merge` — pkg/merger/scan_count.go:14-88. -/
def scanCountMerge (rid : List σ) (threshold : Nat) (k : κ) : κ × Option Err :=
  match scanLists rid [] with
  | .error e => (k, some e)
  | .ok cands => report collect threshold k cands

/-! ### CPMerge -/

/-- Treatment of the answer `r` of `LowerBound(c.Position())` for one candidate —
pkg/merger/cp_merge.go:87-95, divide_skip.go:49-57. -/
def bumpIfHit (c : MergeCandidate) (position : Nat) : Except Err Nat → Except Err MergeCandidate
  | .ok cur => if cur = position then c.increment else .ok c
  | .error .notDereferencable => .ok c
  | .error e => .error e

/-- Inner loop of the second phase over the candidates; `left` = `lenRid - i - 1` —
pkg/merger/cp_merge.go:86-100. -/
def probeLoop (threshold left : Nat) : List MergeCandidate → σ → Except Err (List MergeCandidate)
  | [], _ => .ok []
  | c :: cs, s => do
    let (r, s') := ListIter.lowerBound s c.position
    let c' ← bumpIfHit c c.position r
    let rest ← probeLoop threshold left cs s'
    if c'.overlap + left ≥ threshold then return c' :: rest else return rest

/-- Second phase — pkg/merger/cp_merge.go:83-103 (`for i := minQueries; i < lenRid && len(candidates) > 0`). -/
def probeLists (threshold : Nat) : List σ → List MergeCandidate → Except Err (List MergeCandidate)
  | [], cands => .ok cands
  | s :: rest, cands =>
    if cands.isEmpty then .ok cands
    else do
      let c' ← probeLoop threshold rest.length cands s
      probeLists threshold rest c'

/-- `cpMerge.Merge`; `sort` is `sort.Sort(rid)`. `rid[:lenRid-threshold+1]` panics for threshold 0 —
pkg/merger/cp_merge.go:19-120. -/
def cpMergeMerge (sort : List σ → List σ) (rid : List σ) (threshold : Nat) (k : κ) : κ × Option Err :=
  let rid := sort rid
  if rid.length + 1 - threshold > rid.length then (k, some .panicSlice)
  else
    let minQueries := rid.length + 1 - threshold
    match scanLists (rid.take minQueries) [] with
    | .error e => (k, some e)
    | .ok cands =>
      match probeLists threshold (rid.drop minQueries) cands with
      | .error e => (k, some e)
      | .ok cands => report collect threshold k cands

/-! ### Intersector -/

/-- Inner loop: does every other list contain `item`? Lists after the first miss are not moved —
pkg/merger/list_intersector.go:43-54. -/
def intersectAll (item : Nat) : List σ → Except Err (Bool × List σ)
  | [] => .ok (true, [])
  | s :: rest =>
    match ListIter.lowerBound s item with
    | (.error .notDereferencable, s') => .ok (false, s' :: rest)
    | (.ok lower, s') =>
      if lower ≠ item then .ok (false, s' :: rest)
      else do
        let (b, rest') ← intersectAll item rest
        return (b, s' :: rest')
    | (.error e, _) => .error e

/-- Outer loop — pkg/merger/list_intersector.go:40-78. -/
def intersectLoop (n : Nat) : (fuel : Nat) → Nat → σ → List σ → κ → κ × Option Err
  | 0, _, _, _, k => (k, some loopBound)
  | f + 1, item, first, rest, k =>
    match intersectAll item rest with
    | .error e => (k, some e)
    | .ok (good, rest') =>
      let go (k : κ) : κ × Option Err :=
        if !ListIter.hasNext first then (k, none)
        else
          match ListIter.next first with
          | (.error e, _) => (k, some e)
          | (.ok item', first') => intersectLoop n f item' first' rest' k
      if good then
        match collect k (MergeCandidate.new item n) with
        | (k', .terminated) => (k', none)
        | (k', .err e) => (k', some e)
        | (k', .ok) => go k'
      else go k

/-- `Intersect` — pkg/merger/list_intersector.go:23-81. -/
def intersect (sort : List σ → List σ) (rid : List σ) (k : κ) : κ × Option Err :=
  match sort rid with
  | [] => (k, none)
  | first :: rest =>
    match ListIter.get first with
    | .error e => (k, some e)
    | .ok item =>
      intersectLoop collect (u32 (rest.length + 1)) (ListIter.len first + 1) item first rest k

/-! ### mergerOptimizer -/

/-- `mergerOptimizer.Merge` — pkg/merger/list_merger.go:73-85. `threshold` is any `int`. -/
def optimizerMerge (sort : List σ → List σ) (merge : List σ → Nat → κ → κ × Option Err)
    (rid : List σ) (threshold : Int) (k : κ) : κ × Option Err :=
  let n : Int := rid.length
  if n < threshold ∨ n = 0 ∨ threshold < 0 then (k, none)
  else if n = threshold then intersect collect sort rid k
  else merge rid threshold.toNat k

/-- `ScanCount()` — pkg/merger/scan_count.go:7-9. -/
def scanCount (sort : List σ → List σ) := optimizerMerge collect sort (scanCountMerge collect)

/-- `CPMerge()` — pkg/merger/cp_merge.go:12-14. -/
def cpMerge (sort : List σ → List σ) := optimizerMerge collect sort (cpMergeMerge collect sort)

/-! ### MergeSkip -/

/-- `type record struct` — pkg/merger/merge_skip.go:5-8. -/
structure Record where
  ridID : Nat
  position : Nat
  deriving DecidableEq, Repr

/-- `recordHeap.Less` — pkg/merger/merge_skip.go:20. -/
def Record.less (a b : Record) : Bool := a.position < b.position

/-- State of the loop: backing slice and size of the heap (`recordHeap`, pkg/merger/merge_skip.go:10-13)
and the iterators. -/
structure MSState (σ : Type) where
  mem : Nat → Record
  size : Nat
  rid : List σ

/-- First loop — pkg/merger/merge_skip.go:62-70. A not dereferencable list contributes position 0. -/
def msInit : (i : Nat) → List σ → (Nat → Record) → Except Err (Nat → Record)
  | _, [], mem => .ok mem
  | i, s :: rest, mem =>
    match ListIter.get s with
    | .ok r => msInit (i + 1) rest (fun k => if k = i then ⟨u32 i, r⟩ else mem k)
    | .error .notDereferencable => msInit (i + 1) rest (fun k => if k = i then ⟨u32 i, 0⟩ else mem k)
    | .error e => .error e

/-- `for h.Len() > 0 && t.position >= h.top().position { heap.Pop(&h); poppedItems++ }` —
pkg/merger/merge_skip.go:78-81. Returns memory, new size, number popped. -/
def popEqual (tpos : Nat) : (size : Nat) → (Nat → Record) → (Nat → Record) × Nat × Nat
  | 0, mem => (mem, 0, 0)
  | n + 1, mem =>
    if tpos ≥ (mem 0).position then
      let (m, sz, p) := popEqual tpos n (Heap.pop Record.less mem (n + 1))
      (m, sz, p + 1)
    else (mem, n + 1, 0)

/-- `for j := …; j > 0 && h.Len() > 0; j-- { heap.Pop(&h); poppedItems++ }` —
pkg/merger/merge_skip.go:114-117. -/
def popMore : (j : Nat) → (size : Nat) → (Nat → Record) → (Nat → Record) × Nat × Nat
  | 0, n, mem => (mem, n, 0)
  | _ + 1, 0, mem => (mem, 0, 0)
  | j + 1, n + 1, mem =>
    let (m, sz, p) := popMore j n (Heap.pop Record.less mem (n + 1))
    (m, sz, p + 1)

/-- `h.slice[h.size] = (ridID, r); heap.Push(&h, nil)` — pkg/merger/merge_skip.go:108-110, 142-144. -/
def msPush (st : MSState σ) (id r : Nat) : MSState σ :=
  let mem := fun k => if k = st.size then (⟨id, r⟩ : Record) else st.mem k
  { st with mem := Heap.push Record.less mem st.size, size := st.size + 1 }

/-- Loop after a reported candidate: advance the popped lists — pkg/merger/merge_skip.go:94-112.
`index` runs over `start + i`; the first argument is the number of iterations left. -/
def msAdvance : (left : Nat) → (index : Nat) → MSState σ → Except Err (MSState σ)
  | 0, _, st => .ok st
  | left + 1, index, st =>
    let item := st.mem index
    match st.rid[item.ridID]? with
    | none => .error .panicIndex
    | some cur =>
      if ListIter.hasNext cur then
        match ListIter.next cur with
        | (.error e, _) => .error e
        | (.ok r, cur') =>
          msAdvance left (index + 1) (msPush { st with rid := st.rid.set item.ridID cur' } item.ridID r)
      else msAdvance left (index + 1) st

/-- Loop of the skipping branch — pkg/merger/merge_skip.go:126-146. -/
def msSkip (topPos : Nat) : (left : Nat) → (index : Nat) → MSState σ → Except Err (MSState σ)
  | 0, _, st => .ok st
  | left + 1, index, st =>
    let item := st.mem index
    match st.rid[item.ridID]? with
    | none => .error .panicIndex
    | some cur =>
      if ListIter.len cur = 0 then msSkip topPos left (index + 1) st
      else
        match ListIter.lowerBound cur topPos with
        | (.ok r, cur') =>
          msSkip topPos left (index + 1)
            (msPush { st with rid := st.rid.set item.ridID cur' } item.ridID r)
        | (.error .notDereferencable, cur') =>
          msSkip topPos left (index + 1) { st with rid := st.rid.set item.ridID cur' }
        | (.error e, _) => .error e

/-- Main loop — pkg/merger/merge_skip.go:74-148. -/
def msLoop (threshold : Nat) : (fuel : Nat) → MSState σ → κ → κ × Option Err
  | 0, st, k => if st.size > 0 then (k, some loopBound) else (k, none)
  | f + 1, st, k =>
    if st.size > 0 then
      let t := st.mem 0
      let (mem, size, popped) := popEqual t.position st.size st.mem
      if popped ≥ threshold then
        match collect k (MergeCandidate.new t.position popped) with
        | (k', .terminated) => (k', none)
        | (k', .err e) => (k', some e)
        | (k', .ok) =>
          match msAdvance popped size { st with mem := mem, size := size } with
          | .error e => (k', some e)
          | .ok st' => msLoop threshold f st' k'
      else
        let (mem, size, more) := popMore (threshold - 1 - popped) size mem
        if size = 0 then (k, none)
        else
          match msSkip (mem 0).position (popped + more) size { st with mem := mem, size := size } with
          | .error e => (k, some e)
          | .ok st' => msLoop threshold f st' k
    else (k, none)

/-- `mergeSkip.Merge` — pkg/merger/merge_skip.go:52-151. -/
def mergeSkipMerge (rid : List σ) (threshold : Nat) (k : κ) : κ × Option Err :=
  match msInit 0 rid (fun _ => ⟨0, 0⟩) with
  | .error e => (k, some e)
  | .ok mem =>
    let fuel := (rid.map ListIter.len).sum + 1
    msLoop collect threshold fuel ⟨Heap.init Record.less mem rid.length, rid.length, rid⟩ k

/-- `MergeSkip()` — pkg/merger/merge_skip.go:44-46. -/
def mergeSkip (sort : List σ → List σ) := optimizerMerge collect sort (mergeSkipMerge collect)

/-! ### DivideSkip -/

/-- `SimpleCollector.Collect` — pkg/merger/collector.go:21-25. -/
def simpleCollect : List MergeCandidate → MergeCandidate → List MergeCandidate × CollectRes Err :=
  fun cs c => (cs ++ [c], .ok)

/-- Probe the long lists for one candidate — pkg/merger/divide_skip.go:48-58. -/
def divideProbe (position : Nat) : MergeCandidate → List σ → Except Err (MergeCandidate × List σ)
  | c, [] => .ok (c, [])
  | c, s :: rest => do
    let (r, s') := ListIter.lowerBound s position
    let c1 ← bumpIfHit c position r
    let (c', rest') ← divideProbe position c1 rest
    return (c', s' :: rest')

/-- Loop over the candidates of the short lists — pkg/merger/divide_skip.go:45-71. -/
def divideLoop (threshold : Nat) : List MergeCandidate → List σ → κ → κ × Option Err
  | [], _, k => (k, none)
  | c :: cs, long, k =>
    match divideProbe c.position c long with
    | .error e => (k, some e)
    | .ok (c', long') =>
      if c'.overlap ≥ threshold then
        match collect k c' with
        | (k', .terminated) => (k', none)
        | (k', .err e) => (k', some e)
        | (k', .ok) => divideLoop threshold cs long' k'
      else divideLoop threshold cs long' k

/-- `divideSkip.Merge`; `sort` is `sort.Sort`, `sortDesc` is `sort.Sort(sort.Reverse(rid))`, and `numLong T M` is the
number of long lists computed by `int(float64(T) / (mu*math.Log(M) + 1))` (any function here; the real
formula over ℝ is `divideNumLong` in Verif/Proofs/DivideSkip.lean) — pkg/merger/divide_skip.go:25-74. -/
def divideSkipMerge (sort sortDesc : List σ → List σ) (numLong : Nat → Nat → Int) (rid : List σ)
    (threshold : Nat) (k : κ) : κ × Option Err :=
  let rid := sortDesc rid
  match rid with
  | [] => (k, some .panicIndex)
  | s0 :: _ =>
    let l := numLong threshold (ListIter.len s0)
    if l < 0 ∨ (rid.length : Int) < l then (k, some .panicSlice)
    else
      let l := l.toNat
      let lLong := rid.take l
      let lShort := rid.drop l
      if lShort.isEmpty then mergeSkip collect sort rid threshold k
      else
        match mergeSkip simpleCollect sort lShort ((threshold : Int) - l) [] with
        | (_, some e) => (k, some e)
        | (cands, none) => divideLoop collect threshold cands lLong k

/-- `DivideSkip(mu)` — pkg/merger/divide_skip.go:12-17. -/
def divideSkip (sort sortDesc : List σ → List σ) (numLong : Nat → Nat → Int) :=
  optimizerMerge collect sort (divideSkipMerge collect sort sortDesc numLong)

end
end Verif
