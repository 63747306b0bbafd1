import Verif.Model.Store
import Mathlib.Logic.Function.Basic
/-
Model of pkg/suggest/service.go: any number of goroutines call AddIndex, Suggest/Autocomplete and GetDictionaries on one
service. Every access to one of the two maps and every lock operation is one transition; everything else (building the
index, searching) works on immutable data of one goroutine. `I` is the type of indexes (`NGramIndex`), `D` of
dictionaries. The maps are total functions to `Option`. `log`, `since` and `tid` are ghosts: they do not influence the
behaviour; `log` is the list of publications in the order of the second map write.
-/
namespace Verif

/-- Where a goroutine is. -/
inductive SvcThread (I D : Type) where
  | building (name : String)                                          -- AddIndex, before or in `builder.Build()`
  | built (name : String) (idx : I) (dict : D)                        -- before `s.Lock()`
  | locked (name : String) (idx : I) (dict : D)                       -- before `s.indexes[name] = …`
  | half (name : String) (idx : I) (dict : D)                         -- before `s.dictionaries[name] = …`
  | both (name : String) (idx : I) (dict : D)                         -- before `s.Unlock()`
  | added (name : String) (err : Option Err)                          -- AddIndex has returned
  | reading (name : String) (since : Nat)                             -- Suggest/Autocomplete, before `s.RLock()`
  | rlocked (name : String) (since : Nat)                             -- before the first map read
  | gotIndex (name : String) (since : Nat) (idx : Option I)           -- before the second map read
  | gotBoth (name : String) (since : Nat) (idx : Option I) (dict : Option D) -- before `s.RUnlock()`
  | serving (name : String) (since : Nat) (idx : Option I) (dict : Option D) -- after `s.RUnlock()`
  | listing                                                           -- GetDictionaries, iterating over the map
  | listed

/-- One publication. -/
structure Publication (I D : Type) where
  name : String
  idx : I
  dict : D
  tid : Nat

/-- The service and its goroutines — pkg/suggest/service.go:20-24. -/
structure SvcState (I D : Type) where
  indexes : String → Option I
  dictionaries : String → Option D
  writer : Bool          -- the RWMutex is held for writing
  readers : Nat          -- number of read locks
  threads : List (SvcThread I D)
  log : List (Publication I D)

variable {I D : Type}

/-- `NewService` — pkg/suggest/service.go:27-32. -/
def newService : SvcState I D := ⟨fun _ => none, fun _ => none, false, 0, [], []⟩

/-- What AddRunTimeIndex / AddOnDiscIndex / AddIndex compute before taking the lock: the dictionary is opened, the
builder created and the index built, in this order; the first error is returned —
pkg/suggest/service.go:44-83. -/
def addOutcome {B : Type} (openDict : Except Err D) (newBuilder : D → Except Err B) (build : B → Except Err I) :
    Except Err (I × D) :=
  match openDict with
  | .error e => .error e
  | .ok d =>
    match newBuilder d with
    | .error e => .error e
    | .ok b =>
      match build b with
      | .error e => .error e
      | .ok i => .ok (i, d)

/-- The transitions. The outcome of a build is arbitrary (it is computed by `addOutcome` from files that are not part of
the service state). -/
inductive SvcStep : SvcState I D → SvcState I D → Prop
  | callAdd {s : SvcState I D} (name : String) : SvcStep s { s with threads := s.threads ++ [.building name] }
  | callRead {s : SvcState I D} (name : String) :
      SvcStep s { s with threads := s.threads ++ [.reading name s.log.length] }
  | callList {s : SvcState I D} : SvcStep s { s with threads := s.threads ++ [.listing] }
  /-- `builder.Build()` (or an earlier step) fails: `return err` (service.go:79-83) -/
  | buildErr {s : SvcState I D} {i : Nat} {name : String} {B : Type} {od : Except Err D} {nb : D → Except Err B}
      {bd : B → Except Err I} {e : Err} : s.threads[i]? = some (.building name) → addOutcome od nb bd = .error e →
      SvcStep s { s with threads := s.threads.set i (.added name (some e)) }
  | buildOk {s : SvcState I D} {i : Nat} {name : String} {B : Type} {od : Except Err D} {nb : D → Except Err B}
      {bd : B → Except Err I} {idx : I} {d : D} : s.threads[i]? = some (.building name) →
      addOutcome od nb bd = .ok (idx, d) → SvcStep s { s with threads := s.threads.set i (.built name idx d) }
  /-- `s.Lock()` (service.go:85) -/
  | lock {s : SvcState I D} {i : Nat} {name : String} {idx : I} {d : D} : s.threads[i]? = some (.built name idx d) →
      s.writer = false → s.readers = 0 →
      SvcStep s { s with writer := true, threads := s.threads.set i (.locked name idx d) }
  /-- `s.indexes[name] = nGramIndex` (service.go:86) -/
  | putIndex {s : SvcState I D} {i : Nat} {name : String} {idx : I} {d : D} : s.threads[i]? = some (.locked name idx d) →
      SvcStep s { s with indexes := Function.update s.indexes name (some idx),
                         threads := s.threads.set i (.half name idx d) }
  /-- `s.dictionaries[name] = dict` (service.go:87) -/
  | putDict {s : SvcState I D} {i : Nat} {name : String} {idx : I} {d : D} : s.threads[i]? = some (.half name idx d) →
      SvcStep s { s with dictionaries := Function.update s.dictionaries name (some d),
                         log := s.log ++ [⟨name, idx, d, i⟩],
                         threads := s.threads.set i (.both name idx d) }
  /-- `s.Unlock()` (service.go:88) -/
  | unlock {s : SvcState I D} {i : Nat} {name : String} {idx : I} {d : D} : s.threads[i]? = some (.both name idx d) →
      SvcStep s { s with writer := false, threads := s.threads.set i (.added name none) }
  /-- `s.RLock()` (service.go:106, 143) -/
  | rlock {s : SvcState I D} {i since : Nat} {name : String} : s.threads[i]? = some (.reading name since) →
      s.writer = false →
      SvcStep s { s with readers := s.readers + 1, threads := s.threads.set i (.rlocked name since) }
  /-- `index, okIndex := s.indexes[dictName]` (service.go:107, 144) -/
  | getIndex {s : SvcState I D} {i since : Nat} {name : String} : s.threads[i]? = some (.rlocked name since) →
      SvcStep s { s with threads := s.threads.set i (.gotIndex name since (s.indexes name)) }
  /-- `dict, okDict := s.dictionaries[dictName]` (service.go:108, 145) -/
  | getDict {s : SvcState I D} {i since : Nat} {name : String} {o : Option I} :
      s.threads[i]? = some (.gotIndex name since o) →
      SvcStep s { s with threads := s.threads.set i (.gotBoth name since o (s.dictionaries name)) }
  /-- `s.RUnlock()` (service.go:109, 146) -/
  | runlock {s : SvcState I D} {i since : Nat} {name : String} {o : Option I} {od : Option D} :
      s.threads[i]? = some (.gotBoth name since o od) →
      SvcStep s { s with readers := s.readers - 1, threads := s.threads.set i (.serving name since o od) }
  /-- the end of the unprotected iteration over `s.dictionaries` (service.go:95-101) -/
  | list {s : SvcState I D} {i : Nat} : s.threads[i]? = some .listing →
      SvcStep s { s with threads := s.threads.set i .listed }

/-- States reachable from the empty service under some schedule. -/
inductive SvcReachable : SvcState I D → Prop
  | init : SvcReachable newService
  | step {s s' : SvcState I D} : SvcReachable s → SvcStep s s' → SvcReachable s'

/-- The access of a goroutine to the maps in its next step: `none`, reading, or writing. -/
inductive MapAccess where
  | none | read | write
  deriving DecidableEq

/-- The next map access of a goroutine. -/
def SvcThread.access : SvcThread I D → MapAccess
  | .locked .. => .write
  | .half .. => .write
  | .rlocked .. => .read
  | .gotIndex .. => .read
  | .listing => .read
  | _ => .none

/-- The tail of `Service.Suggest` / `Service.Autocomplete`: `dict.Get` for every candidate; the first error is
returned; a missing dictionary or index is an error — pkg/suggest/service.go:111-138, 142-173. `search` is the search
on the index, `value` the dictionary lookup, `score` the score stored in the result. -/
def serve {C V : Type} (idx : Option I) (dict : Option D) (search : I → Except Err (List C))
    (value : D → C → Except Err V) : Except Err (List (C × V)) :=
  match idx, dict with
  | some i, some d =>
    match search i with
    | .error e => .error e
    | .ok cs =>
      cs.foldr (fun c acc =>
        match value d c with
        | .error e => .error e
        | .ok v =>
          match acc with
          | .error e => .error e
          | .ok l => .ok ((c, v) :: l)) (.ok [])
  | _, _ => .error (.other "given dictionary is not exists")

end Verif
