import Verif.Model.Autocomplete
import Verif.Model.NGramFiles
import Verif.Model.NGramVector
/-
Model of pkg/spellchecker (spellchecker.go, collector.go, scorer.go). Conventions as in Model/Suggest.lean: the calls
of `Autocomplete` and `Suggest` are transition systems, so `Predict` is a relation between its arguments and what it may
return. Scores are of an arbitrary linearly ordered type `S`; `val` gives the float64 of a language model score (the
scores of `ScoreNext` are never NaN, as the counts of the context are positive).
-/
namespace Verif
open Spec (Candidate CollectRes)

section
variable {S : Type} [LinearOrder S]

omit [LinearOrder S] in
/-- `newScorer(next).Score` of a document — pkg/spellchecker/scorer.go:9-41; `none` is a nil `lm.ScorerNext`. -/
def lmScore (val : LMScore → S) (next : Option ScorerNext) (id : Nat) : Except Err S :=
  match next with
  | none => .ok (val .unknown)
  | some s =>
    match s.score id with
    | .error e => .error e
    | .ok v => .ok (val v)

/-- `lmCollector.Collect` — pkg/spellchecker/collector.go:61-78. `newScorer` never returns nil, so the first branch is
never taken. -/
def lmCollect (score : Nat → Except Err S) (q : TopKQueue S) (item : MergeCandidate) : TopKQueue S × CollectRes Err :=
  match score item.position with
  | .error e => (q, .err e)
  | .ok s =>
    match q.add item.position s with
    | .ok q' => (q', .ok)
    | .error e => (q, .err e)

/-- The queue of a new collector: `make(topKHeap, 0, topK)` (a negative `topK` has panicked before, when the queue of the
manager was created) — pkg/spellchecker/collector.go:34-39, pkg/suggest/topk.go:72-77. -/
def emptyQueue [Inhabited S] (topK : Int) : TopKQueue S := ⟨topK, fun _ => ⟨0, default⟩, 0⟩

/-- What `New` puts together; `prefixGrams` is the tokenizer of the autocomplete of the index, `grams` that of its suggester
(pkg/suggest/ngram_index_builder.go:67-77), `wordID` is `model.GetWordID`, `dict` is `dict.Get`
(read errors are not modelled) — pkg/spellchecker/spellchecker.go:17-37. -/
structure SpellChecker where
  ρ : Roaring
  sort : List (PList ρ) → List (PList ρ)
  index : OpenIndex
  prefixGrams : Bytes → List String
  grams : Bytes → List String
  model : LangModel
  wordID : Bytes → Except Err Nat
  tokenize : Bytes → List Bytes
  dict : Nat → Bytes

/-- The call of `Autocomplete` with the language model collector manager — pkg/spellchecker/spellchecker.go:54-60,
collector.go:17-58. -/
def lmAutocompleteCall [Inhabited S] (ρ : Roaring) (sort : List (PList ρ) → List (PList ρ)) (oi : OpenIndex)
    (q : List String) (score : Nat → Except Err S) (topK : Int) : AConf (TopKQueue S) S (Nat → SkipList) where
  indices := builtIndices ρ sort oi q
  termsLen := q.length
  limit := topK
  create := emptyQueue topK
  collect := lmCollect score
  merge := TopKQueue.merge

/-- `scorerNext` — pkg/spellchecker/spellchecker.go:95-107, pkg/lm/language_model.go:56-70. -/
def spellScorer (sc : SpellChecker) (seq : List Bytes) : Except Err (Option ScorerNext) :=
  match mapWords sc.wordID seq with
  | .error e => .error e
  | .ok ids => if ids.length > 0 then sc.model.next ids else .ok none

omit [LinearOrder S] in
/-- The inner loop of `merge` — pkg/spellchecker/spellchecker.go:138-143. -/
def hasKey (a : List (Candidate S)) (y : Candidate S) : Bool := a.any fun x => x.key == y.key

omit [LinearOrder S] in
/-- `merge` — pkg/spellchecker/spellchecker.go:134-151. -/
def mergeCandidates (a b : List (Candidate S)) : List (Candidate S) :=
  b.foldl (fun a y => if hasKey a y then a else a ++ [y]) a

omit [LinearOrder S] in
/-- The scores of the candidates for `sortCandidates` — pkg/spellchecker/spellchecker.go:129. -/
def scoredStep (score : Nat → Except Err S) (acc : List (S × Candidate S)) (c : Candidate S) :
    Except Err (List (S × Candidate S)) :=
  match score c.key with
  | .error e => .error e
  | .ok s => .ok (acc ++ [(s, c)])

/-- `sortCandidates`: `sort.SliceStable` (by its contract: the stable sort) with "greater score first". The scores are
computed first here, in the code with every comparison; a panic of `ScoreNext` is the only failure — pkg/spellchecker/spellchecker.go:127-131. -/
def sortCandidates (score : Nat → Except Err S) (cs : List (Candidate S)) : Except Err (List (Candidate S)) :=
  match foldE (scoredStep score) [] cs with
  | .error e => .error e
  | .ok l => .ok ((l.mergeSort fun x y => decide (y.1 ≤ x.1)).map Prod.snd)

/-- Sorting, if there is a scorer — pkg/spellchecker/spellchecker.go:83-85. -/
def predictSort (val : LMScore → S) (next : Option ScorerNext) (cs : List (Candidate S)) :
    Except Err (List (Candidate S)) :=
  match next with
  | none => .ok cs
  | some _ => sortCandidates (lmScore val next) cs

/-- The end of `Predict`: sorting if there is a scorer, cutting, reading the dictionary; `candidates[:topK+1]`
(the upper bound is taken to be `len`; Go's is `cap`) — pkg/spellchecker/spellchecker.go:83-91, 110-124. -/
def predictFinish (sc : SpellChecker) (val : LMScore → S) (next : Option ScorerNext) (topK : Int)
    (cs : List (Candidate S)) : Except Err (List Bytes) :=
  match predictSort val next cs with
  | .error e => .error e
  | .ok cs =>
    if topK < cs.length then
      if topK + 1 < 0 ∨ topK + 1 > cs.length then .error .panicSlice else .ok ((cs.take (topK + 1).toNat).map fun c => sc.dict c.key)
    else .ok (cs.map fun c => sc.dict c.key)

/-- `Predict` returns `r` under some schedule of the goroutines — pkg/spellchecker/spellchecker.go:40-92. -/
inductive PredictReturns [Inhabited S] (F : FloatOps S) (val : LMScore → S) (sc : SpellChecker) (query : Bytes)
    (topK : Int) (similarity : S) : Except Err (List Bytes) → Prop
  /-- no tokens (lines 43-45) -/
  | noTokens : sc.tokenize query = [] → PredictReturns F val sc query topK similarity (.ok [])
  /-- `scorerNext` fails (lines 48-52) -/
  | scorerErr {seq word e} : sc.tokenize query = seq ++ [word] → spellScorer sc seq = .error e →
      PredictReturns F val sc query topK similarity (.error e)
  /-- `Autocomplete` fails (lines 62-64) -/
  | autoErr {seq word next e} : sc.tokenize query = seq ++ [word] → spellScorer sc seq = .ok next →
      AutocompleteReturns (lmAutocompleteCall sc.ρ sc.sort sc.index (sc.prefixGrams word) (lmScore val next) topK) (.error e) →
      PredictReturns F val sc query topK similarity (.error e)
  /-- enough candidates (line 66) -/
  | enough {seq word next cs} : sc.tokenize query = seq ++ [word] → spellScorer sc seq = .ok next →
      AutocompleteReturns (lmAutocompleteCall sc.ρ sc.sort sc.index (sc.prefixGrams word) (lmScore val next) topK) (.ok cs) →
      topK ≤ cs.length → PredictReturns F val sc query topK similarity (predictFinish sc val next topK cs)
  /-- `Suggest` fails (lines 67-78) -/
  | fuzzyErr {seq word next cs e} : sc.tokenize query = seq ++ [word] → spellScorer sc seq = .ok next →
      AutocompleteReturns (lmAutocompleteCall sc.ρ sc.sort sc.index (sc.prefixGrams word) (lmScore val next) topK) (.ok cs) →
      (cs.length : Int) < topK →
      SuggestReturns (suggestCall F (cosineMetric F) sc.ρ sc.sort sc.index (sc.grams word) similarity topK) (.error e) →
      PredictReturns F val sc query topK similarity (.error e)
  /-- fuzzy candidates are added (lines 66-81) -/
  | fuzzy {seq word next cs fs} : sc.tokenize query = seq ++ [word] → spellScorer sc seq = .ok next →
      AutocompleteReturns (lmAutocompleteCall sc.ρ sc.sort sc.index (sc.prefixGrams word) (lmScore val next) topK) (.ok cs) →
      (cs.length : Int) < topK →
      SuggestReturns (suggestCall F (cosineMetric F) sc.ρ sc.sort sc.index (sc.grams word) similarity topK) (.ok fs) →
      PredictReturns F val sc query topK similarity (predictFinish sc val next topK (mergeCandidates cs fs))

/-- A goroutine of `Predict` panics under some schedule: its own (net/http recovers it), or one of the searches, which ends the process
(Model/Serve). -/
inductive PredictPanics [Inhabited S] (F : FloatOps S) (val : LMScore → S) (sc : SpellChecker) (query : Bytes)
    (topK : Int) (similarity : S) : Prop
  | auto {seq word next} : sc.tokenize query = seq ++ [word] → spellScorer sc seq = .ok next →
      AutocompletePanics (lmAutocompleteCall sc.ρ sc.sort sc.index (sc.prefixGrams word) (lmScore val next) topK) →
      PredictPanics F val sc query topK similarity
  | fuzzy {seq word next cs} : sc.tokenize query = seq ++ [word] → spellScorer sc seq = .ok next →
      AutocompleteReturns (lmAutocompleteCall sc.ρ sc.sort sc.index (sc.prefixGrams word) (lmScore val next) topK) (.ok cs) →
      (cs.length : Int) < topK →
      SuggestPanics (suggestCall F (cosineMetric F) sc.ρ sc.sort sc.index (sc.grams word) similarity topK) →
      PredictPanics F val sc query topK similarity

/-- `Predict` blocks for ever under some schedule: one of the two searches does. -/
inductive PredictBlocks [Inhabited S] (F : FloatOps S) (val : LMScore → S) (sc : SpellChecker) (query : Bytes)
    (topK : Int) (similarity : S) : Prop
  | auto {seq word next} : sc.tokenize query = seq ++ [word] → spellScorer sc seq = .ok next →
      AutocompleteBlocks (lmAutocompleteCall sc.ρ sc.sort sc.index (sc.prefixGrams word) (lmScore val next) topK) →
      PredictBlocks F val sc query topK similarity
  | fuzzy {seq word next cs} : sc.tokenize query = seq ++ [word] → spellScorer sc seq = .ok next →
      AutocompleteReturns (lmAutocompleteCall sc.ρ sc.sort sc.index (sc.prefixGrams word) (lmScore val next) topK) (.ok cs) →
      (cs.length : Int) < topK →
      SuggestBlocks (suggestCall F (cosineMetric F) sc.ρ sc.sort sc.index (sc.grams word) similarity topK) →
      PredictBlocks F val sc query topK similarity

/-- `Predict` runs for ever under some schedule: one of the two searches has an infinite run (the rest of `Predict` are
loops over lists). -/
inductive PredictRunsForever [Inhabited S] (F : FloatOps S) (val : LMScore → S) (sc : SpellChecker) (query : Bytes)
    (topK : Int) (similarity : S) : Prop
  | auto {seq word next} {f : Nat → AState (TopKQueue S) S} : sc.tokenize query = seq ++ [word] → spellScorer sc seq = .ok next →
      (∀ i, (lmAutocompleteCall sc.ρ sc.sort sc.index (sc.prefixGrams word) (lmScore val next) topK).Step (f i) (f (i + 1))) →
      PredictRunsForever F val sc query topK similarity
  | fuzzy {seq word next} {f : Nat → SState S} : sc.tokenize query = seq ++ [word] → spellScorer sc seq = .ok next →
      (∀ i, (suggestCall F (cosineMetric F) sc.ρ sc.sort sc.index (sc.grams word) similarity topK).Step (f i) (f (i + 1))) →
      PredictRunsForever F val sc query topK similarity

end
end Verif
