import Verif.Model.Index
import Verif.Model.Merger
import Mathlib.Logic.Function.Basic
/-
Model of what concurrent searches share: the four `sync.Pool`s (pkg/index/codec.go:53-102, pkg/merger/cp_merge.go:122-126), the posting
list objects and the buffers they hand out, and the code that uses them, access by access: pkg/index/searcher.go, pkg/merger/cp_merge.go,
pkg/merger/list_intersector.go. (The other models treat a posting list as a value and a buffer as a list.)

A goroutine is a `Prog`: a tree of accesses to shared objects. The scheduler (`Sys.Step`) may switch goroutines between any two
accesses. A `sync.Pool` may hand out any object it has, or a new one, and may drop objects at any time, as its documentation says.
-/
namespace Verif.Pool
open Verif
open Verif.Spec (CollectRes)

/-- The address of an object. -/
abbrev Ref := Nat

/-- A program that accesses objects of type `V` and the pools `P`. -/
inductive Prog (P V α : Type) where
  /-- it has ended -/
  | ret (a : α)
  /-- one access to an object: the content `v` becomes `f v`; the program goes on with what it has seen -/
  | act (r : Ref) (f : V → V) (k : V → Prog P V α)
  /-- a new object -/
  | alloc (v : V) (k : Ref → Prog P V α)
  /-- `sync.Pool.Get` -/
  | get (p : P) (k : Ref → Prog P V α)
  /-- `sync.Pool.Put` -/
  | put (p : P) (r : Ref) (k : Prog P V α)

namespace Prog
variable {P V α β : Type}

/-- First `x`, then `f` with its result. -/
def bind (x : Prog P V α) (f : α → Prog P V β) : Prog P V β :=
  match x with
  | .ret a => f a
  | .act r g k => .act r g fun v => (k v).bind f
  | .alloc v k => .alloc v fun r => (k r).bind f
  | .get p k => .get p fun r => (k r).bind f
  | .put p r k => .put p r (k.bind f)

instance : Monad (Prog P V) where
  pure := .ret
  bind := bind

end Prog

/-- All goroutines (each with the job it was started for), the memory, the objects in the pools. -/
structure Sys (J P V α : Type) where
  heap : Ref → Option V
  pool : P → List Ref
  threads : List (J × Prog P V α)

/-- One step of goroutine `i`, or of the run time. `fresh p v`: `v` is what `New` of the pool `p` creates. `start j`: the program of job `j`. -/
inductive Sys.Step {J P V α : Type} [DecidableEq P] (fresh : P → V → Prop) (start : J → Prog P V α) : Option Nat → Sys J P V α → Sys J P V α → Prop
  | spawn {s : Sys J P V α} (j : J) : Step fresh start none s { s with threads := s.threads ++ [(j, start j)] }
  | act {s : Sys J P V α} {i : Nat} {j : J} {r : Ref} {f : V → V} {k : V → Prog P V α} {v : V} : s.threads[i]? = some (j, .act r f k) →
      s.heap r = some v →
      Step fresh start (some i) s { s with heap := Function.update s.heap r (some (f v)), threads := s.threads.set i (j, k v) }
  | alloc {s : Sys J P V α} {i : Nat} {j : J} {v : V} {k : Ref → Prog P V α} {r : Ref} : s.threads[i]? = some (j, .alloc v k) →
      s.heap r = none →
      Step fresh start (some i) s { s with heap := Function.update s.heap r (some v), threads := s.threads.set i (j, k r) }
  /-- the pool hands out one of its objects -/
  | get {s : Sys J P V α} {i : Nat} {j : J} {p : P} {k : Ref → Prog P V α} {r : Ref} : s.threads[i]? = some (j, .get p k) →
      r ∈ s.pool p →
      Step fresh start (some i) s { s with pool := Function.update s.pool p ((s.pool p).erase r), threads := s.threads.set i (j, k r) }
  /-- the pool creates an object -/
  | getNew {s : Sys J P V α} {i : Nat} {j : J} {p : P} {k : Ref → Prog P V α} {r : Ref} {v : V} : s.threads[i]? = some (j, .get p k) →
      s.heap r = none → fresh p v →
      Step fresh start (some i) s { s with heap := Function.update s.heap r (some v), threads := s.threads.set i (j, k r) }
  | put {s : Sys J P V α} {i : Nat} {j : J} {p : P} {r : Ref} {k : Prog P V α} : s.threads[i]? = some (j, .put p r k) →
      Step fresh start (some i) s { s with pool := Function.update s.pool p (s.pool p ++ [r]), threads := s.threads.set i (j, k) }
  /-- the garbage collector empties (a part of) a pool -/
  | drop {s : Sys J P V α} (p : P) (r : Ref) : r ∈ s.pool p →
      Step fresh start none s { s with pool := Function.update s.pool p ((s.pool p).erase r) }

/-! ### The objects -/

/-- An array of merge candidates (its length is the capacity of the slices), a posting list, or a bitmap posting list that was never
initialised. -/
inductive Obj (ρ : Roaring) where
  | buf (a : List MergeCandidate)
  | list (s : PList ρ)
  | newBitmap

/-- `bufPool`, `vbEncPostingListPool`, `skippingPostingListPool`, `bitmapPostingListPool`. -/
inductive PoolName where
  | buf | vb | skip | bitmap
  deriving DecidableEq

variable {ρ : Roaring}

/-- What the functions `New` create — pkg/merger/cp_merge.go:123-125, pkg/index/codec.go:55-72. -/
def newObj : PoolName → Obj ρ
  | .buf => .buf (List.replicate 1024 0)
  | .vb => .list (.vb ⟨⟨[], 0⟩, 0, 0, 0⟩)
  | .skip => .list (.skip ⟨⟨[], 0⟩, 0, 0, 0, 0, 0, skippingGapSize, false⟩)
  | .bitmap => .newBitmap

/-- A program of a search. -/
abbrev P (ρ : Roaring) := Prog PoolName (Obj ρ)

/-- One method call on the posting list at `r` (a call on another object does not type check in Go: `d` is never returned). -/
def onList {β : Type} (r : Ref) (f : PList ρ → β × PList ρ) (d : β) : P ρ β :=
  .act r (fun o => match o with | .list s => .list (f s).2 | o => o) fun o => match o with | .list s => .ret (f s).1 | _ => .ret d

/-- A Go slice `[]MergeCandidate` that begins at the beginning of its array. -/
structure Slice where
  arr : Ref
  len : Nat

/-- `s[j]`, read. -/
def sliceAt (s : Slice) (j : Nat) : P ρ MergeCandidate :=
  .act s.arr id fun o => match o with | .buf a => .ret (a.getD j 0) | _ => .ret 0

/-- `s[j]`, written. -/
def sliceSet (s : Slice) (j : Nat) (x : MergeCandidate) : P ρ Unit :=
  .act s.arr (fun o => match o with | .buf a => .buf (a.set j x) | o => o) fun _ => .ret ()

/-- `append(s, x)`: into the array if there is room, otherwise into a new array with `grow` more places. -/
def append (grow : Nat → Nat) (s : Slice) (x : MergeCandidate) : P ρ Slice :=
  .act s.arr (fun o => match o with | .buf a => if s.len < a.length then .buf (a.set s.len x) else .buf a | o => o) fun o =>
    match o with
    | .buf a =>
      if s.len < a.length then .ret ⟨s.arr, s.len + 1⟩
      else .alloc (.buf (a.take s.len ++ [x] ++ List.replicate (grow s.len) 0)) fun r => .ret ⟨r, s.len + 1⟩
    | _ => .ret s

/-! ### pkg/merger/cp_merge.go -/

/-- `list.Get()` with the treatment of the error — pkg/merger/cp_merge.go:34-42. -/
def hGetCurrent (it : Ref) : P ρ (Except Err (Option Nat)) := do
  match ← onList it (fun s => (ListIter.get s, s)) (.error .notDereferencable) with
  | .ok v => return .ok (some v)
  | .error .notDereferencable => return .ok none
  | .error e => return .error e

/-- `if list.HasNext() { current, err = list.Next() … } else { isValid = false }` — pkg/merger/cp_merge.go:51-59, 68-76. -/
def hAdvance (it : Ref) : P ρ (Except Err (Option Nat)) := do
  if ← onList it (fun s => (ListIter.hasNext s, s)) false then
    match ← onList it (fun s => ListIter.next s) (.error .notDereferencable) with
    | .ok v => return .ok (some v)
    | .error e => return .error e
  else return .ok none

/-- The inner loop over `candidates[j:]` and the list — pkg/merger/cp_merge.go:47-78. `candidates[j]` is read once for all comparisons.
(`fuel`: see `Verif.scanLoop`.) -/
def hScanLoop (grow : Nat → Nat) (it : Ref) (cands : Slice) : (fuel : Nat) → (j : Nat) → (cur : Option Nat) → (tmp : Slice) → P ρ (Except Err Slice)
  | fuel, j, cur, tmp =>
    if j < cands.len then
      match fuel with
      | 0 => return .error loopBound
      | fuel + 1 => do
        let c ← sliceAt cands j
        match cur with
        | none => do
          let tmp ← append grow tmp c
          hScanLoop grow it cands fuel (j + 1) none tmp
        | some x =>
          if c.position > x then do
            let tmp ← append grow tmp (MergeCandidate.new x 1)
            match ← hAdvance it with
            | .error e => return .error e
            | .ok cur => hScanLoop grow it cands fuel j cur tmp
          else if c.position < x then do
            let tmp ← append grow tmp c
            hScanLoop grow it cands fuel (j + 1) (some x) tmp
          else
            match c.increment with
            | .error e => return .error e
            | .ok c' => do
              sliceSet cands j c'
              let c'' ← sliceAt cands j
              let tmp ← append grow tmp c''
              match ← hAdvance it with
              | .error e => return .error e
              | .ok cur => hScanLoop grow it cands fuel (j + 1) cur tmp
    else
      match cur with
      | none => return .ok tmp
      | some x =>
        match fuel with
        | 0 => return .error loopBound
        | fuel + 1 => do
          let tmp ← append grow tmp (MergeCandidate.new x 1)
          match ← hAdvance it with
          | .error e => return .error e
          | .ok cur => hScanLoop grow it cands fuel j cur tmp

/-- The first phase; the result is (`candidates`, `tmp`) — pkg/merger/cp_merge.go:32-81. -/
def hScanLists (grow : Nat → Nat) : List Ref → (cands tmp : Slice) → P ρ (Except Err (Slice × Slice))
  | [], cands, tmp => return .ok (cands, tmp)
  | it :: rest, cands, tmp => do
    match ← hGetCurrent it with
    | .error e => return .error e
    | .ok cur => do
      let n ← onList it (fun s => (ListIter.len s, s)) 0
      match ← hScanLoop grow it cands (cands.len + n + 1) 0 cur ⟨tmp.arr, 0⟩ with
      | .error e => return .error e
      | .ok tmp' => hScanLists grow rest tmp' cands

/-- The inner loop of the second phase: `n` candidates left — pkg/merger/cp_merge.go:86-100. -/
def hProbeLoop (grow : Nat → Nat) (threshold left : Nat) (it : Ref) (cands : Slice) : (n : Nat) → (tmp : Slice) → P ρ (Except Err Slice)
  | 0, tmp => return .ok tmp
  | n + 1, tmp => do
    let c ← sliceAt cands (cands.len - (n + 1))
    match bumpIfHit c c.position (← onList it (fun s => ListIter.lowerBound s c.position) (.error .notDereferencable)) with
    | .error e => return .error e
    | .ok c' =>
      if c'.overlap + left ≥ threshold then do
        let tmp ← append grow tmp c'
        hProbeLoop grow threshold left it cands n tmp
      else hProbeLoop grow threshold left it cands n tmp

/-- The second phase — pkg/merger/cp_merge.go:83-103. -/
def hProbeLists (grow : Nat → Nat) (threshold : Nat) : List Ref → (cands tmp : Slice) → P ρ (Except Err (Slice × Slice))
  | [], cands, tmp => return .ok (cands, tmp)
  | it :: rest, cands, tmp =>
    if cands.len = 0 then return .ok (cands, tmp)
    else do
      match ← hProbeLoop grow threshold rest.length it cands cands.len ⟨tmp.arr, 0⟩ with
      | .error e => return .error e
      | .ok tmp' => hProbeLists grow threshold rest tmp' cands

section
variable {κ : Type} (collect : κ → MergeCandidate → κ × CollectRes Err)

/-- The last loop — pkg/merger/cp_merge.go:105-117. -/
def hReport (threshold : Nat) (cands : Slice) : (n : Nat) → κ → P ρ (κ × Option Err)
  | 0, k => return (k, none)
  | n + 1, k => do
    let c ← sliceAt cands (cands.len - (n + 1))
    if c.overlap ≥ threshold then
      match collect k c with
      | (k', .ok) => hReport threshold cands n k'
      | (k', .terminated) => return (k', none)
      | (k', .err e) => return (k', some e)
    else hReport threshold cands n k

/-- The elements of `l` at the positions `is`. -/
def permute {α : Type} (is : List Nat) (l : List α) : List α := is.filterMap fun i => l[i]?

/-- `Len()` of all lists. -/
def hLens : List Ref → P ρ (List Nat)
  | [] => return []
  | it :: rest => do
    let n ← onList it (fun s => (ListIter.len s, s)) 0
    return n :: (← hLens rest)

/-- `sort.Sort(rid)` compares by `Len()` and swaps: a permutation that depends on the lengths — pkg/merger/list_merger.go:22-29. -/
def hSort (order : List Nat → List Nat) (rid : List Ref) : P ρ (List Ref) := do
  return permute (order (← hLens rid)) rid

/-- The body of `Merge` between `bufPool.Get` and the deferred calls — pkg/merger/cp_merge.go:32-119. -/
def hCpBody (grow : Nat → Nat) (rid : List Ref) (threshold : Nat) (tmp cands : Slice) (k : κ) : P ρ (κ × Option Err) :=
  if rid.length + 1 - threshold > rid.length then return (k, some .panicSlice)
  else do
    match ← hScanLists grow (rid.take (rid.length + 1 - threshold)) cands tmp with
    | .error e => return (k, some e)
    | .ok (cands, tmp) =>
      match ← hProbeLists grow threshold (rid.drop (rid.length + 1 - threshold)) cands tmp with
      | .error e => return (k, some e)
      | .ok (cands, _) => hReport collect threshold cands cands.len k

/-- `cpMerge.Merge`: the buffers that the deferred calls put back are those that came from the pool — pkg/merger/cp_merge.go:19-120. -/
def hCpMerge (grow : Nat → Nat) (order : List Nat → List Nat) (rid : List Ref) (threshold : Nat) (k : κ) : P ρ (κ × Option Err) := do
  let rid ← hSort order rid
  let tmp ← Prog.get .buf .ret
  let cands ← Prog.get .buf .ret
  let res ← hCpBody collect grow rid threshold ⟨tmp, 0⟩ ⟨cands, 0⟩ k
  Prog.put .buf cands (.put .buf tmp (.ret res))

/-! ### pkg/merger/list_intersector.go, list_merger.go -/

/-- The inner loop — pkg/merger/list_intersector.go:43-54. -/
def hIntersectAll (item : Nat) : List Ref → P ρ (Except Err Bool)
  | [] => return .ok true
  | it :: rest => do
    match ← onList it (fun s => ListIter.lowerBound s item) (.error .notDereferencable) with
    | .error .notDereferencable => return .ok false
    | .ok lower => if lower ≠ item then return .ok false else hIntersectAll item rest
    | .error e => return .error e

/-- The end of the outer loop: the next item of the first list — pkg/merger/list_intersector.go:69-77. -/
def hIntersectNext (first : Ref) (loop : Nat → κ → P ρ (κ × Option Err)) (k : κ) : P ρ (κ × Option Err) := do
  if !(← onList first (fun s => (ListIter.hasNext s, s)) false) then return (k, none)
  else
    match ← onList first (fun s => ListIter.next s) (.error .notDereferencable) with
    | .error e => return (k, some e)
    | .ok item' => loop item' k

/-- The outer loop — pkg/merger/list_intersector.go:40-78. -/
def hIntersectLoop (n : Nat) (first : Ref) (rest : List Ref) : (fuel : Nat) → (item : Nat) → κ → P ρ (κ × Option Err)
  | 0, _, k => return (k, some loopBound)
  | f + 1, item, k => do
    match ← hIntersectAll item rest with
    | .error e => return (k, some e)
    | .ok good =>
      if good then
        match collect k (MergeCandidate.new item n) with
        | (k', .terminated) => return (k', none)
        | (k', .err e) => return (k', some e)
        | (k', .ok) => hIntersectNext first (hIntersectLoop n first rest f) k'
      else hIntersectNext first (hIntersectLoop n first rest f) k

/-- `Intersect` — pkg/merger/list_intersector.go:23-81. -/
def hIntersect (order : List Nat → List Nat) (rid : List Ref) (k : κ) : P ρ (κ × Option Err) := do
  match ← hSort order rid with
  | [] => return (k, none)
  | first :: rest => do
    match ← onList first (fun s => (ListIter.get s, s)) (.error .notDereferencable) with
    | .error e => return (k, some e)
    | .ok item => do
      let n ← onList first (fun s => (ListIter.len s, s)) 0
      hIntersectLoop collect (u32 (rest.length + 1)) first rest (n + 1) item k

/-- `mergerOptimizer.Merge` — pkg/merger/list_merger.go:73-85. -/
def hMerge (grow : Nat → Nat) (order : List Nat → List Nat) (rid : List Ref) (threshold : Int) (k : κ) : P ρ (κ × Option Err) :=
  let n : Int := rid.length
  if n < threshold ∨ n = 0 ∨ threshold < 0 then return (k, none)
  else if n = threshold then hIntersect collect order rid k
  else hCpMerge collect grow order rid threshold.toNat k

/-! ### pkg/index/searcher.go -/

/-- `resolvePostingList`: the pool — pkg/index/codec.go:76-88. -/
def resolve (ctx : PLContext) : PoolName :=
  if ctx.listSize ≤ skippingGapSize + 1 then .vb else if ctx.listSize ≤ maxSkippingLen then .skip else .bitmap

/-- `list.Init(context)`: the object afterwards, and the error. An object whose `Init` fails keeps its content (in fact some fields may
have changed) — pkg/index/posting_list.go:94-108, skipping_posting_list.go:170-178, bitmap_posting_list.go:74-105. -/
def initObj (ctx : PLContext) : Obj ρ → Option Err × Obj ρ
  | .list (.vb s) =>
    match VBList.init ctx with
    | .ok s' => (none, .list (.vb s'))
    | .error e => (some e, .list (.vb s))
  | .list (.skip s) =>
    match SkipList.init s ctx with
    | .ok s' => (none, .list (.skip s'))
    | .error e => (some e, .list (.skip s))
  | .list (.bitmap s) =>
    match BitmapList.init ρ ctx with
    | .ok s' => (none, .list (.bitmap s'))
    | .error e => (some e, .list (.bitmap s))
  | .newBitmap =>
    match BitmapList.init ρ ctx with
    | .ok s' => (none, .list (.bitmap s'))
    | .error e => (some e, .newBitmap)
  | .buf a => (none, .buf a)

/-- `Init` on the object at `r`. -/
def hInit (r : Ref) (ctx : PLContext) : P ρ (Option Err) := .act r (fun o => (initObj ctx o).2) fun o => .ret (initObj ctx o).1

/-- `releasePostingList`: a switch on the type of the object — pkg/index/codec.go:91-104. -/
def hRelease (r : Ref) : P ρ Unit :=
  .act r id fun o =>
    match o with
    | .list (.vb _) => .put .vb r (.ret ())
    | .list (.skip _) => .put .skip r (.ret ())
    | .list (.bitmap _) => .put .bitmap r (.ret ())
    | .newBitmap => .put .bitmap r (.ret ())
    | .buf _ => .ret ()

/-- The deferred calls, last first. -/
def hReleaseAll : List Ref → P ρ Unit
  | [] => return ()
  | r :: rs => do
    hReleaseAll rs
    hRelease r

/-- The loop over the terms: the objects taken from the pools (to be released at the end), and the error — pkg/index/searcher.go:38-58. -/
def hOpenAll (docs : BytesInput) (t : Table) : List String → P ρ (List Ref × Option Err)
  | [] => return ([], none)
  | x :: xs =>
    match t.get docs x with
    | .error e => return ([], some e)
    | .ok none => return ([], some .panicIndex)
    | .ok (some ctx) => do
      let r ← Prog.get (resolve ctx) .ret
      match ← hInit r ctx with
      | some e => return ([r], some e)
      | none => do
        let (rs, e) ← hOpenAll docs t xs
        return (r :: rs, e)

/-- `searcher.Search` with `CPMerge` — pkg/index/searcher.go:28-65. -/
def hSearch (grow : Nat → Nat) (order : List Nat → List Nat) (docs : BytesInput) (t : Table) (terms : List String) (threshold : Int)
    (k : κ) : P ρ (κ × Option Err) :=
  let terms := filterTerms t threshold terms []
  if (terms.length : Int) < threshold then return (k, none)
  else do
    let (rid, e) ← hOpenAll docs t terms
    let res ← match e with
      | some e => pure (k, some e)
      | none => hMerge collect grow order rid threshold k
    hReleaseAll rid
    return res

end

end Verif.Pool
