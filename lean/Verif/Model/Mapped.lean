import Verif.Model.IndexerJob
/-
Model of the files a running server has mapped into its memory: `NewMMapReader` (pkg/utils/mmap_reader.go:23-45) and
`fsDirectory.OpenInput` (pkg/store/fs_directory.go:55-75) map the document list of a DISC index; nothing is copied, every search
reads the mapping (`byteInput.Slice`, pkg/store/byte_input.go:115-127). mmap(2): a shared read-only mapping of a file shows the
bytes the file has *now*; the rest of its last page reads as zeros; touching a page behind it raises SIGBUS, which Go
cannot recover from (the process ends).
-/
namespace Verif

/-- The page size (4096 on all platforms the code runs on by default; theorems only use that it is positive). -/
def pageSize : Nat := 4096

/-- The end of the last page that a file of `len` bytes has. -/
def pageEnd (len : Nat) : Nat := (len + (pageSize - 1)) / pageSize * pageSize

/-- Reading byte `i` of a mapping of `mapped` bytes when the file has the content `cur`; `none` is SIGBUS. The mapping has the
length the file had when it was opened (Go checks `i < mapped` and panics otherwise, which the callers exclude). -/
def mappedByte (cur : Bytes) (i : Nat) : Option UInt8 :=
  if h : i < cur.length then some cur[i] else if i < pageEnd cur.length then some 0 else none

/-- Reading the bytes `[pos, pos + size)` of the mapping, as a posting list does — pkg/store/byte_input.go:115-127, 130-195. -/
def mappedRead (cur : Bytes) (pos size : Nat) : Option Bytes := (List.range size).mapM fun k => mappedByte cur (pos + k)

/-! ### Mappings, searches, reloads and the garbage collector

`OpenInput` puts a finalizer on the input that unmaps the file (pkg/store/fs_directory.go:70-72): when no reference to the input
is left, the garbage collector runs it. The posting lists of a search hold slices of the *mapped memory*, which is not memory of
the Go heap: they do not keep the input alive. A variable keeps its object alive until its last use (package runtime,
`SetFinalizer` and `KeepAlive`: an argument or receiver may become unreachable before the function returns).

* `Suggest`'s workers use `n.indices` in every round of their loop (pkg/suggest/suggester.go:72-112): the index stays alive until
  the search is over.
* A goroutine of `Autocomplete` uses `n` and `invertedIndex` for the last time when it calls `Search`
  (pkg/suggest/autocomplete.go:57-70), and `Search` uses `invertedIndex` for the last time when it opens the posting lists
  (pkg/index/searcher.go:42-62); during `Merge` only the posting lists are left.

A search is one call of `Search` on one segment. -/

/-- Where a search is: before its last use of the index, in `Merge`, or over. -/
inductive SearchAt where
  | opening
  | merging
  | over
deriving DecidableEq

/-- A search: the mapping its index reads, whether its caller keeps the index alive, and whether it has touched memory that is
not mapped (which ends the process). -/
structure MapSearch where
  mapping : Nat
  keeps : Bool
  pos : SearchAt
  fault : Bool

/-- Does the search hold a reference to the input of its index? -/
def MapSearch.holds (s : MapSearch) : Bool :=
  match s.pos with
  | .opening => true
  | .merging => s.keeps
  | .over => false

/-- The server: which mappings are there, the one of the published index, the number of the next one, the searches. -/
structure MapState where
  mapped : Nat → Bool
  published : Nat
  next : Nat
  searches : List MapSearch

/-- A server that has loaded its index. -/
def mapInit : MapState := ⟨fun m => m == 0, 0, 1, []⟩

/-- The steps. -/
inductive MapStep : MapState → MapState → Prop
  /-- a request begins a search on the published index (pkg/suggest/service.go:103-108, 142-147) -/
  | start {s : MapState} (keeps : Bool) : MapStep s { s with searches := s.searches ++ [⟨s.published, keeps, .opening, false⟩] }
  /-- a search reads a posting list -/
  | read {s : MapState} {i : Nat} {x : MapSearch} : s.searches[i]? = some x → x.pos ≠ .over →
      MapStep s { s with searches := s.searches.set i { x with fault := x.fault || !s.mapped x.mapping } }
  /-- all posting lists are open, `Merge` begins -/
  | merge {s : MapState} {i : Nat} {x : MapSearch} : s.searches[i]? = some x → x.pos = .opening →
      MapStep s { s with searches := s.searches.set i { x with pos := .merging } }
  /-- the search is over -/
  | finish {s : MapState} {i : Nat} {x : MapSearch} : s.searches[i]? = some x → x.pos = .merging →
      MapStep s { s with searches := s.searches.set i { x with pos := .over } }
  /-- a reload maps the files again and publishes the new index (pkg/suggest/service.go:58-90) -/
  | reload {s : MapState} : MapStep s { s with mapped := fun m => m == s.next || s.mapped m, published := s.next, next := s.next + 1 }
  /-- the garbage collector finds no reference to the input of `m`; its finalizer unmaps the file -/
  | collect {s : MapState} {m : Nat} : m ≠ s.published → (∀ x ∈ s.searches, x.mapping = m → x.holds = false) →
      MapStep s { s with mapped := fun k => k != m && s.mapped k }

end Verif
