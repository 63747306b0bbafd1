import Verif.Model.NGramVector
import Verif.Model.Text
import Mathlib.Logic.Function.Basic
/-
Model of the language model API on shared memory: pkg/lm/language_model.go, ngram_model.go, scorer_next.go work on Go slices; `append`
writes into the array of its argument if there is room behind it. (Model/NGramVector treats slices as lists.)

A goroutine is a `Prog`: a tree of accesses to single elements of arrays. The scheduler may switch goroutines between any two accesses.
The vectors of the model are never written after loading and are treated as values. The array `counts` of `Score` and the list of slices
of `splitIntoNGrams` never leave their function and are treated as values as well.
-/
namespace Verif.LMMem
open Verif

/-- The address of an array of 32-bit words. -/
abbrev Ref := Nat

/-- A slice: `cap` elements of the array from `off` on belong to it, the first `len` of them are its elements. -/
structure Slice where
  arr : Ref
  off : Nat
  len : Nat
  cap : Nat
  deriving DecidableEq

/-- A program that reads and writes elements of arrays. -/
inductive Prog (α : Type) where
  | ret (a : α)
  | read (r : Ref) (i : Nat) (k : Nat → Prog α)
  | write (r : Ref) (i : Nat) (v : Nat) (k : Prog α)
  /-- a new array of `n` zeros -/
  | alloc (n : Nat) (k : Ref → Prog α)

namespace Prog

/-- First `x`, then `f` with its result. -/
def bind {α β : Type} (x : Prog α) (f : α → Prog β) : Prog β :=
  match x with
  | .ret a => f a
  | .read r i k => .read r i fun v => (k v).bind f
  | .write r i v k => .write r i v (k.bind f)
  | .alloc n k => .alloc n fun r => (k r).bind f

end Prog

/-! ### slices -/

/-- Copies `n` elements from index `i` of the slice into the array `r`, from index `j` on. -/
def copyFrom (s : Slice) (r : Ref) : Nat → Nat → Nat → Prog Unit
  | 0, _, _ => .ret ()
  | n + 1, i, j => .read s.arr (s.off + i) fun v => .write r j v (copyFrom s r n (i + 1) (j + 1))

/-- `append(s, x)`: in place if there is room, otherwise into a new array; `grow n` is the capacity the run time chooses for at least
`n` elements — Go specification, "Appending to and copying slices". -/
def append (grow : Nat → Nat) (s : Slice) (x : Nat) : Prog Slice :=
  if s.len < s.cap then .write s.arr (s.off + s.len) x (.ret ⟨s.arr, s.off, s.len + 1, s.cap⟩)
  else .alloc (grow (s.len + 1)) fun r =>
    (copyFrom s r s.len 0 0).bind fun _ => .write r s.len x (.ret ⟨r, 0, s.len + 1, grow (s.len + 1)⟩)

/-- `append([]WordID{start}, s...)` — pkg/lm/language_model.go:126. -/
def leftWrap (grow : Nat → Nat) (start : Nat) (s : Slice) : Prog Slice :=
  .alloc 1 fun q => .write q 0 start
    (if s.len = 0 then .ret ⟨q, 0, 1, 1⟩
     else .alloc (grow (1 + s.len)) fun r => .read q 0 fun v => .write r 0 v
      ((copyFrom s r s.len 0 1).bind fun _ => .ret ⟨r, 0, 1 + s.len, grow (1 + s.len)⟩))

/-- Reads `n` elements of the slice from index `i` on. -/
def readFrom (s : Slice) : Nat → Nat → Prog (List Nat)
  | 0, _ => .ret []
  | n + 1, i => .read s.arr (s.off + i) fun v => (readFrom s n (i + 1)).bind fun l => .ret (v :: l)

/-- `s[a:b]` — Go specification, "Slice expressions" (0 ≤ a ≤ b ≤ cap). -/
def Slice.sub (s : Slice) (a b : Nat) : Slice := ⟨s.arr, s.off + a, b - a, s.cap - a⟩

/-! ### the functions of the language model -/

/-- The loop of `MapIntoListOfWordIDs` — pkg/lm/language_model.go:59-67. -/
def mapLoop (grow : Nat → Nat) (getID : Bytes → Except Err Nat) : List Bytes → Slice → Prog (Except Err Slice)
  | [], ids => .ret (.ok ids)
  | t :: ts, ids =>
    match getID t with
    | .error e => .ret (.error e)
    | .ok index => (append grow ids index).bind fun ids => mapLoop grow getID ts ids

/-- `MapIntoListOfWordIDs` — pkg/lm/language_model.go:56-70. -/
def mapIntoListOfWordIDs (grow : Nat → Nat) (getID : Bytes → Except Err Nat) (sentence : List Bytes) : Prog (Except Err Slice) :=
  .alloc sentence.length fun r => mapLoop grow getID sentence ⟨r, 0, 0, sentence.length⟩

/-- `nGramModel.Score` on a slice: the words are read one by one (at most as many as there are vectors) — pkg/lm/ngram_model.go:44-64. -/
def score (vs : List PackedArray) (s : Slice) : Prog (Except Err LMScore) :=
  (readFrom s (min vs.length s.len) 0).bind fun ws => .ret (modelScore vs ws)

/-- The slices of `splitIntoNGrams` — pkg/lm/generator.go:9-23. -/
def splitSlice (s : Slice) (k : Nat) : List Slice :=
  if s.len < k then [] else (List.range (s.len - k + 1)).map fun i => s.sub i (i + k)

/-- The loop of `ScoreWordIDs`: the summands — pkg/lm/language_model.go:87-89. -/
def scoreAll (vs : List PackedArray) : List Slice → Prog (Except Err (List LMScore))
  | [] => .ret (.ok [])
  | g :: gs => (score vs g).bind fun x =>
    match x with
    | .error e => .ret (.error e)
    | .ok x => (scoreAll vs gs).bind fun xs =>
      match xs with
      | .error e => .ret (.error e)
      | .ok xs => .ret (.ok (x :: xs))

/-- `ScoreWordIDs` with `wrapSentence`: `append(sentence, endSymbol)`, then the start symbol before it —
pkg/lm/language_model.go:84-92, 115-132. -/
def scoreWordIDs (grow : Nat → Nat) (m : LangModel) (s : Slice) : Prog (Except Err (List LMScore)) :=
  (append grow s m.endSymbol).bind fun s => (leftWrap grow m.startSymbol s).bind fun s => scoreAll m.vectors (splitSlice s m.order)

/-- `ScoreSentence` — pkg/lm/language_model.go:73-81. -/
def scoreSentence (grow : Nat → Nat) (m : LangModel) (getID : Bytes → Except Err Nat) (sentence : List Bytes) :
    Prog (Except Err (List LMScore)) :=
  (mapIntoListOfWordIDs grow getID sentence).bind fun x =>
    match x with
    | .error e => .ret (.error e)
    | .ok ids => scoreWordIDs grow m ids

/-- `type scorerNext struct` — pkg/lm/scorer_next.go:9-13. -/
structure Scorer where
  contextCounts : Slice
  context : Nat
  vector : PackedArray

/-- The loop of `nGramModel.Next` at the word with index `i` (`n` words are left) — pkg/lm/ngram_model.go:77-86. -/
def nextLoop (grow : Nat → Nat) (s : Slice) : List PackedArray → Nat → Nat → Slice → Nat →
    Prog (Except Err (Option (Slice × Nat × PackedArray)))
  | v :: _, 0, _, counts, parent => .ret (.ok (some (counts, parent, v)))
  | v :: vs, n + 1, i, counts, parent => .read s.arr (s.off + i) fun w =>
    match v.getCount w parent with
    | .error e => .ret (.error e)
    | .ok (count, parent') =>
      if count = 0 then .ret (.ok none)
      else (append grow counts count).bind fun counts => nextLoop grow s vs n (i + 1) counts parent'
  | [], _, _, _, _ => .ret (.error .panicIndex)

/-- `nGramModel.Next` — pkg/lm/ngram_model.go:67-99. -/
def modelNextM (grow : Nat → Nat) (vs : List PackedArray) (s : Slice) : Prog (Except Err (Option Scorer)) :=
  if vs.length ≤ s.len ∨ s.len = 0 then .ret (.error (.other "nGrams length should be less than the nGramModel order"))
  else .alloc s.len fun r => (nextLoop grow s vs s.len 0 ⟨r, 0, 0, s.len⟩ invalidContext).bind fun x =>
    match x with
    | .error e => .ret (.error e)
    | .ok none => .ret (.ok none)
    | .ok (some (counts, parent, v)) =>
      match v.subVector parent with
      | none => .ret (.ok none)
      | some sub => .ret (.ok (some ⟨counts, parent, sub⟩))

/-- `languageModel.Next` — pkg/lm/language_model.go:100-112. -/
def next (grow : Nat → Nat) (m : LangModel) (s : Slice) : Prog (Except Err (Option Scorer)) :=
  if s.len + 1 < m.order then (leftWrap grow m.startSymbol s).bind fun s => modelNextM grow m.vectors s
  else if s.len > m.order then modelNextM grow m.vectors (s.sub (s.len - m.order + 1) s.len)
  else if s.len = m.order then modelNextM grow m.vectors (s.sub 0 (m.order - 1))
  else modelNextM grow m.vectors s

/-- The loop of `calcScore` at index `i`, `steps` factors of alpha collected — pkg/lm/ngram_model.go:166-172. -/
def calcLoopM (s : Slice) : Nat → Nat → Prog LMScore
  | 0, _ => .ret .unknown
  | i + 1, steps => .read s.arr (s.off + (i + 1)) fun c =>
    if c > 0 then .read s.arr (s.off + (i + 1)) fun num => .read s.arr (s.off + i) fun den => .ret (.ratio steps num den)
    else calcLoopM s i (steps + 1)

/-- `ScoreNext` — pkg/lm/scorer_next.go:15-23. -/
def scoreNext (grow : Nat → Nat) (sc : Scorer) (word : Nat) : Prog (Except Err LMScore) :=
  match sc.vector.getCount word sc.context with
  | .error e => .ret (.error e)
  | .ok (count, _) =>
    if count = 0 then .ret (.ok .unknown)
    else (append grow sc.contextCounts count).bind fun s => (calcLoopM s (s.len - 1) 0).bind fun x => .ret (.ok x)

/-! ### goroutines -/

/-- A call of the API. -/
inductive Call where
  | scoreIDs (s : Slice)
  | scoreSentence (sentence : List Bytes)
  | next (s : Slice)
  | scoreNext (sc : Scorer) (word : Nat)

/-- What a call returns. -/
inductive Result where
  | scores (r : Except Err (List LMScore))
  | scorer (r : Except Err (Option Scorer))
  | score (r : Except Err LMScore)

/-- The program of a call. -/
def Call.prog (grow : Nat → Nat) (m : LangModel) (getID : Bytes → Except Err Nat) : Call → Prog Result
  | .scoreIDs s => (scoreWordIDs grow m s).bind fun r => .ret (.scores r)
  | .scoreSentence t => (LMMem.scoreSentence grow m getID t).bind fun r => .ret (.scores r)
  | .next s => (LMMem.next grow m s).bind fun r => .ret (.scorer r)
  | .scoreNext sc w => (LMMem.scoreNext grow sc w).bind fun r => .ret (.score r)

/-- The memory and the goroutines, each with the call it was started for. -/
structure Sys where
  heap : Ref → Option (List Nat)
  threads : List (Call × Prog Result)

/-- One step: a goroutine is started (a scorer must have been returned by an earlier call; `given`: the calls with slices of the caller),
or goroutine `i` accesses the memory. An index outside the array is not possible: it would panic. -/
inductive Sys.Step (grow : Nat → Nat) (m : LangModel) (getID : Bytes → Except Err Nat) (given : Call → Prop) : Sys → Sys → Prop
  | scoreIDs {σ : Sys} {s : Slice} : given (.scoreIDs s) →
      Step grow m getID given σ ⟨σ.heap, σ.threads ++ [(.scoreIDs s, (Call.scoreIDs s).prog grow m getID)]⟩
  | scoreSentence {σ : Sys} {t : List Bytes} :
      Step grow m getID given σ ⟨σ.heap, σ.threads ++ [(.scoreSentence t, (Call.scoreSentence t).prog grow m getID)]⟩
  | next {σ : Sys} {s : Slice} : given (.next s) →
      Step grow m getID given σ ⟨σ.heap, σ.threads ++ [(.next s, (Call.next s).prog grow m getID)]⟩
  | scoreNext {σ : Sys} {sc : Scorer} {w : Nat} {c : Call} : (c, .ret (.scorer (.ok (some sc)))) ∈ σ.threads →
      Step grow m getID given σ ⟨σ.heap, σ.threads ++ [(.scoreNext sc w, (Call.scoreNext sc w).prog grow m getID)]⟩
  | read {σ : Sys} {n : Nat} {c : Call} {r : Ref} {i : Nat} {k : Nat → Prog Result} {a : List Nat} {v : Nat} :
      σ.threads[n]? = some (c, .read r i k) → σ.heap r = some a → a[i]? = some v →
      Step grow m getID given σ ⟨σ.heap, σ.threads.set n (c, k v)⟩
  | write {σ : Sys} {n : Nat} {c : Call} {r : Ref} {i v : Nat} {k : Prog Result} {a : List Nat} :
      σ.threads[n]? = some (c, .write r i v k) → σ.heap r = some a → i < a.length →
      Step grow m getID given σ ⟨Function.update σ.heap r (some (a.set i v)), σ.threads.set n (c, k)⟩
  | alloc {σ : Sys} {n : Nat} {c : Call} {size : Nat} {k : Ref → Prog Result} {r : Ref} :
      σ.threads[n]? = some (c, .alloc size k) → σ.heap r = none →
      Step grow m getID given σ ⟨Function.update σ.heap r (some (List.replicate size 0)), σ.threads.set n (c, k r)⟩

end Verif.LMMem
