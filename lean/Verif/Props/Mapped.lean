import Verif.Model.Mapped
import Verif.Props.FileSearch
import Mathlib.Logic.Relation
/-!
Property theorems C77 (re-indexing does not disturb a running server) and C78 (a reload does not disturb the requests in
progress) — pkg/utils/mmap_reader.go, pkg/store/fs_directory.go.

`mappedRead cur pos size` is what a running server reads at a posting list if the file has the content `cur` now (`none`: the
process is ended by SIGBUS). `ReflTransGen MapStep mapInit s` — `s` is reached by any sequence of searches, reloads and
collections.
-/
namespace Verif.Props
open Verif Spec Verif.WordSearch Relation

theorem mappedRead_of_fits {cur : List UInt8} : ∀ (size pos : Nat), pos + size ≤ cur.length →
    mappedRead cur pos size = some ((cur.drop pos).take size) := by
  intro size pos h
  unfold mappedRead
  have : ∀ (l : List Nat) , (∀ k ∈ l, pos + k < cur.length) →
      l.mapM (fun k => mappedByte cur (pos + k)) = some (l.map fun k => cur.getD (pos + k) 0) := by
    intro l
    induction l with
    | nil => intro _; rfl
    | cons k l ih =>
      intro hl
      have hk := hl k (by simp)
      rw [List.mapM_cons, ih fun k hk => hl k (by simp [hk])]
      simp [mappedByte, hk]
  rw [this _ fun k hk => by have := List.mem_range.1 hk; omega]
  congr 1
  apply List.ext_getElem
  · simp; omega
  · intro i h1 h2
    simp at h1 h2 ⊢
    rw [List.getElem?_eq_getElem (by omega)]
    rfl

/-- **C77** (partial) As long as the file is not changed, a running server reads the bytes it read when it opened the index.

Missing: while and after the indexer rewrites it. That is false, see `C77_reindex_kills`. -/
theorem C77_unchanged_partial {content : List UInt8} {pos size : Nat} (h : pos + size ≤ content.length) :
    mappedRead content pos size = some ((content.drop pos).take size) := mappedRead_of_fits size pos h

/-- Reading beyond the last page of the file as it is now ends the process. -/
theorem mappedRead_beyond {cur : List UInt8} {pos size : Nat} (h : pageEnd cur.length < pos + size) (hs : 0 < size) :
    mappedRead cur pos size = none := by
  have hlen : cur.length ≤ pageEnd cur.length := by
    unfold pageEnd pageSize
    omega
  obtain ⟨n, rfl⟩ : ∃ n, size = n + 1 := ⟨size - 1, by omega⟩
  unfold mappedRead
  rw [List.range_succ, List.mapM_append, List.mapM_cons, List.mapM_nil]
  have : mappedByte cur (pos + n) = none := by
    unfold mappedByte
    rw [dif_neg (by omega), if_neg (by omega)]
  rw [this]
  cases (List.range n).mapM fun k => mappedByte cur (pos + k) <;> rfl

/-- **C77** is false: every run of the indexer for the description of an index that a server serves has a moment (after the
document list has been truncated) at which reading any posting list of any term ends the server process. -/
theorem C77_reindex_kills {ρ : Roaring} {G : Gob} {order : Nat → TermMap → TermMap}
    {splitDocs splitHeader : List UInt8 → List (List UInt8)} {name : String} {tok : Tokenizer} {dict : Dict} {ops : List JobOp}
    (h : indexJobOps ρ G order splitDocs splitHeader name tok dict = .ok ops) (s : DiscState) :
    ∃ done, done <+: ops ∧ ∃ cur, (done.foldl applyJob s).files (writerConfig name).docs = some cur ∧
      ∀ pos size, 0 < size → mappedRead cur pos size = none := by
  unfold indexJobOps at h
  split at h
  · cases h
  · rename_i b hd he
    simp only [Except.ok.injEq] at h
    subst h
    refine ⟨[.truncateDict, .finishDict dict, .index (.create (writerConfig name).docs)], ?_, [], ?_, ?_⟩
    · unfold commitOpsFS
      simp only [List.cons_append, List.map_cons, List.nil_append]
      exact List.prefix_append [_, _, _] _
    · simp [applyJob, applyFS, Files.update]
    · intro pos size hs
      exact mappedRead_beyond (by simp [pageEnd, pageSize]; omega) hs

/-- **C77** … and if the new document list is shorter by pages, the posting lists at its end stay unreadable after the indexer
has finished, until the server reloads. -/
theorem C77_shorter_kills {new : List UInt8} {pos size : Nat} (hs : 0 < size) (h : pageEnd new.length < pos + size) :
    mappedRead new pos size = none := mappedRead_beyond h hs

/-- **C77** Even if nothing faults the answers may be wrong: the server uses the positions of the old header with the new
document list. The dictionary was "apple", now it is "appla", "apple". The posting list of "app" is the byte at position 1 of the
old document list: word 0. In the new one there is a 1 at that position, which is not the number of a word of the old dictionary. -/
theorem C77_wrong_postings : ∃ (old new : List UInt8) (hd hd' : Header),
    indexData toyRoaring (fun _ m => m) (suggestTokenizer asciiLower id tinyConf) (ramDict (["apple".toList].map utf8)) = .ok (old, hd) ∧
    (hd.terms.filter fun x => x.term == "app").map (fun x => (x.position, x.bytesSize)) = [(1, 1)] ∧
    indexData toyRoaring (fun _ m => m) (suggestTokenizer asciiLower id tinyConf)
      (ramDict (["appla".toList, "apple".toList].map utf8)) = .ok (new, hd') ∧
    mappedRead old 1 1 = some [0] ∧ mappedRead new 1 1 = some [1] := by
  have hv : ∀ v, v ≤ 0x7F → encVUInt32 v = [UInt8.ofNat v] := fun v hv => by
    rw [encVUInt32]; simp [hv]
  have h1 := codecEncode_one toyRoaring
  have h2 : codecEncode toyRoaring [0, 1] = .ok ([0, 1], 2) := by
    simp [codecEncode, vbEncode, varIntEncode, varIntEncodeTotal, u32sub, hv 0, hv 1, skippingGapSize]
  obtain ⟨ix, hix0⟩ : ∃ ix : Indices, ix = [none, none, none, none, none,
    some [("$ap", [0]), ("app", [0]), ("ppl", [0]), ("ple", [0]), ("le$", [0])]] := ⟨_, rfl⟩
  have hix : addDocuments ((wordDocs tinySpec ["apple".toList]).map fun x => (x.id, x.terms)) [] = .ok ix := by
    rw [hix0]; decide +kernel
  obtain ⟨iy, hiy0⟩ : ∃ iy : Indices, iy = [none, none, none, none, none,
    some [("$ap", [0, 1]), ("app", [0, 1]), ("ppl", [0, 1]), ("pla", [0]), ("la$", [0]), ("ple", [1]), ("le$", [1])]] := ⟨_, rfl⟩
  have hiy : addDocuments ((wordDocs tinySpec ["appla".toList, "apple".toList]).map fun x => (x.id, x.terms)) [] = .ok iy := by
    rw [hiy0]; decide +kernel
  obtain ⟨hd, hh, hp⟩ : ∃ hd, commitData toyRoaring (fun _ m => m) ix = .ok ([0, 0, 0, 0, 0], hd) ∧
      (hd.terms.filter fun x => x.term == "app").map (fun x => (x.position, x.bytesSize)) = [(1, 1)] := by
    rw [hix0]
    simp only [commitData, commitOrder, List.zipIdx_cons, List.zipIdx_nil, List.flatMap_cons, List.flatMap_nil,
      Option.getD_some, Option.getD_none, List.map_nil, List.nil_append, List.map_cons, List.cons_append,
      commitEntries, h1 0 (by decide), bind,
      Except.bind, pure, Except.pure]
    exact ⟨_, rfl, by decide +kernel⟩
  obtain ⟨hd', hh'⟩ : ∃ hd', commitData toyRoaring (fun _ m => m) iy = .ok ([0, 1, 0, 1, 0, 1, 0, 0, 1, 1], hd') := by
    rw [hiy0]
    simp only [commitData, commitOrder, List.zipIdx_cons, List.zipIdx_nil, List.flatMap_cons, List.flatMap_nil,
      Option.getD_some, Option.getD_none, List.map_nil, List.nil_append, List.map_cons, List.cons_append,
      commitEntries, h1 0 (by decide), h1 1 (by decide), h2, bind,
      Except.bind, pure, Except.pure]
    exact ⟨_, rfl⟩
  refine ⟨[0, 0, 0, 0, 0], [0, 1, 0, 1, 0, 1, 0, 0, 1, 1], hd, hd', ?_, hp, ?_, by decide +kernel, by decide +kernel⟩
  · rw [indexData_words tiny_describes (by intro w hw; apply faithful_of_clean; revert w; decide +kernel), hix]
    exact hh
  · rw [indexData_words tiny_describes (by intro w hw; apply faithful_of_clean; revert w; decide +kernel), hiy]
    exact hh'

/-! ### C78 -/

/-- What holds in all reachable states. -/
structure MapInv (s : MapState) : Prop where
  pub : s.mapped s.published = true
  lt : s.published < s.next
  held : ∀ x ∈ s.searches, x.holds = true → s.mapped x.mapping = true
  before : ∀ x ∈ s.searches, x.mapping < s.next
  keep : ∀ x ∈ s.searches, x.keeps = true → x.fault = false
  gone : ∀ x ∈ s.searches, x.fault = true → s.mapped x.mapping = false
  early : ∀ x ∈ s.searches, x.pos = .opening → x.fault = false

theorem holds_of_keeps {x : MapSearch} (hk : x.keeps = true) (hp : x.pos ≠ .over) : x.holds = true := by
  unfold MapSearch.holds
  cases h : x.pos <;> simp_all

theorem holds_of_opening {x : MapSearch} (hp : x.pos = .opening) : x.holds = true := by
  unfold MapSearch.holds
  rw [hp]

theorem mapInv_step {s t : MapState} (h : MapInv s) (hs : MapStep s t) : MapInv t := by
  obtain ⟨h1, h2, h3, h4, h5, h6, h7⟩ := h
  cases hs with
  | start keeps =>
    refine ⟨h1, h2, ?_, ?_, ?_, ?_, ?_⟩ <;> intro x hx <;> rcases List.mem_append.1 hx with hx | hx
    · exact h3 x hx
    · simp only [List.mem_singleton] at hx; subst hx; intro _; exact h1
    · exact h4 x hx
    · simp only [List.mem_singleton] at hx; subst hx; exact h2
    · exact h5 x hx
    · simp only [List.mem_singleton] at hx; subst hx; intro _; rfl
    · exact h6 x hx
    · simp only [List.mem_singleton] at hx; subst hx; intro h; cases h
    · exact h7 x hx
    · simp only [List.mem_singleton] at hx; subst hx; intro _; rfl
  | @read i x hx hp =>
    have hm := List.mem_of_getElem? hx
    refine ⟨h1, h2, ?_, ?_, ?_, ?_, ?_⟩ <;> intro y hy <;> rcases List.mem_or_eq_of_mem_set hy with hy | rfl
    · exact h3 y hy
    · exact fun hh => h3 x hm hh
    · exact h4 y hy
    · exact h4 x hm
    · exact h5 y hy
    · intro hk
      have hk' : x.keeps = true := hk
      simp [h5 x hm hk', h3 x hm (holds_of_keeps hk' hp)]
    · exact h6 y hy
    · intro hf
      rcases Bool.or_eq_true_iff.1 hf with hf | hf
      · exact h6 x hm hf
      · simpa using hf
    · exact h7 y hy
    · intro ho
      simp [h7 x hm ho, h3 x hm (holds_of_opening ho)]
  | @merge i x hx hp =>
    have hm := List.mem_of_getElem? hx
    refine ⟨h1, h2, ?_, ?_, ?_, ?_, ?_⟩ <;> intro y hy <;> rcases List.mem_or_eq_of_mem_set hy with hy | rfl
    · exact h3 y hy
    · exact fun _ => h3 x hm (holds_of_opening hp)
    · exact h4 y hy
    · exact h4 x hm
    · exact h5 y hy
    · exact fun hk => h5 x hm hk
    · exact h6 y hy
    · exact fun hf => h6 x hm hf
    · exact h7 y hy
    · intro ho; cases ho
  | @finish i x hx hp =>
    have hm := List.mem_of_getElem? hx
    refine ⟨h1, h2, ?_, ?_, ?_, ?_, ?_⟩ <;> intro y hy <;> rcases List.mem_or_eq_of_mem_set hy with hy | rfl
    · exact h3 y hy
    · intro hh; cases hh
    · exact h4 y hy
    · exact h4 x hm
    · exact h5 y hy
    · exact fun hk => h5 x hm hk
    · exact h6 y hy
    · exact fun hf => h6 x hm hf
    · exact h7 y hy
    · intro ho; cases ho
  | reload =>
    refine ⟨by simp, Nat.lt_succ_self _, ?_, ?_, h5, ?_, h7⟩
    · intro x hx hh
      simp [h3 x hx hh]
    · intro x hx
      exact Nat.lt_succ_of_lt (h4 x hx)
    · intro x hx hf
      have := h4 x hx
      simp [h6 x hx hf]
      omega
  | @collect m hm hc =>
    refine ⟨?_, h2, ?_, h4, h5, ?_, h7⟩
    · simpa [h1] using fun h => hm h.symm
    · intro x hx hh
      have : x.mapping ≠ m := fun he => by rw [hc x hx he] at hh; cases hh
      simpa [h3 x hx hh] using this
    · intro x hx hf
      simp [h6 x hx hf]

theorem mapInv {s : MapState} (h : ReflTransGen MapStep mapInit s) : MapInv s := by
  induction h with
  | refl =>
    refine ⟨rfl, Nat.zero_lt_one, ?_, ?_, ?_, ?_, ?_⟩ <;> intro x hx <;> cases hx
  | tail _ hs ih => exact mapInv_step ih hs

/-- **C78** A fuzzy search (`/suggest`) never touches memory that is not mapped any more, whatever reloads and collections happen
while it runs, and in between. -/
theorem C78_suggest_safe {s : MapState} (h : ReflTransGen MapStep mapInit s) {x : MapSearch} (hx : x ∈ s.searches)
    (hk : x.keeps = true) : x.fault = false := (mapInv h).keep x hx hk

/-- **C78** Every search finds its memory mapped until it has opened all its posting lists, … -/
theorem C78_opening_safe {s : MapState} (h : ReflTransGen MapStep mapInit s) {x : MapSearch} (hx : x ∈ s.searches)
    (ho : x.pos = .opening) : s.mapped x.mapping = true ∧ x.fault = false :=
  ⟨(mapInv h).held x hx (holds_of_opening ho), (mapInv h).early x hx ho⟩

/-- **C78** … the published index always is mapped, … -/
theorem C78_published_mapped {s : MapState} (h : ReflTransGen MapStep mapInit s) : s.mapped s.published = true := (mapInv h).pub

/-- **C78** (partial) … and a prefix search (`/autocomplete`) does not fault as long as no reload replaces the index it reads.

Missing: prefix searches that are running when the index is replaced. That is false, see `C78_complete_unmapped`. -/
theorem C78_complete_partial {s : MapState} (h : ReflTransGen MapStep mapInit s) {x : MapSearch} (hx : x ∈ s.searches)
    (hp : x.mapping = s.published) : x.fault = false := by
  cases hf : x.fault
  · rfl
  · have := (mapInv h).gone x hx hf
    rw [hp, (mapInv h).pub] at this
    cases this

/-- **C78** is false for prefix searches: a search has opened its posting lists, the index is reloaded, the collector unmaps the
old document list, the search reads on. -/
theorem C78_complete_unmapped : ∃ s, ReflTransGen MapStep mapInit s ∧ ∃ x ∈ s.searches, x.pos = .merging ∧ x.fault = true := by
  let x0 : MapSearch := ⟨0, false, .opening, false⟩
  let x1 : MapSearch := ⟨0, false, .merging, false⟩
  have a1 : MapStep mapInit { mapInit with searches := [x0] } := .start false
  have a2 : MapStep { mapInit with searches := [x0] } { mapInit with searches := [x1] } :=
    .merge (i := 0) (x := x0) rfl rfl
  have a3 : MapStep { mapInit with searches := [x1] } ⟨fun m => m == 1 || m == 0, 1, 2, [x1]⟩ := .reload
  have a4 : MapStep ⟨fun m => m == 1 || m == 0, 1, 2, [x1]⟩ ⟨fun k => k != 0 && (k == 1 || k == 0), 1, 2, [x1]⟩ :=
    .collect (m := 0) (by decide) (by
      intro x hx _
      simp only [List.mem_singleton] at hx
      subst hx
      rfl)
  have a5 : MapStep ⟨fun k => k != 0 && (k == 1 || k == 0), 1, 2, [x1]⟩
      ⟨fun k => k != 0 && (k == 1 || k == 0), 1, 2, [{ x1 with fault := true }]⟩ :=
    .read (i := 0) (x := x1) rfl (by decide)
  exact ⟨_, ((((ReflTransGen.single a1).tail a2).tail a3).tail a4).tail a5, _, List.mem_singleton.2 rfl, rfl, rfl⟩

/-- The hypotheses of `C78_suggest_safe` are met by a fuzzy search that goes on reading after a reload. -/
example : ∃ s, ReflTransGen MapStep mapInit s ∧ s.published = 1 ∧ s.mapped 0 = true ∧
    (⟨0, true, .merging, false⟩ : MapSearch) ∈ s.searches := by
  let x0 : MapSearch := ⟨0, true, .opening, false⟩
  let x1 : MapSearch := ⟨0, true, .merging, false⟩
  have a1 : MapStep mapInit { mapInit with searches := [x0] } := .start true
  have a2 : MapStep { mapInit with searches := [x0] } { mapInit with searches := [x1] } :=
    .merge (i := 0) (x := x0) rfl rfl
  have a3 : MapStep { mapInit with searches := [x1] } ⟨fun m => m == 1 || m == 0, 1, 2, [x1]⟩ := .reload
  have a4 : MapStep ⟨fun m => m == 1 || m == 0, 1, 2, [x1]⟩ ⟨fun m => m == 1 || m == 0, 1, 2, [x1]⟩ :=
    .read (i := 0) (x := x1) rfl (by decide)
  exact ⟨_, (((ReflTransGen.single a1).tail a2).tail a3).tail a4, rfl, rfl, List.mem_singleton.2 rfl⟩

/-- The hypothesis of `C77_reindex_kills` is met: indexing the dictionary "apple" succeeds. -/
example : ∃ (G : Gob) (b : List UInt8) (hd : Header),
    indexData toyRoaring (fun _ m => m) (suggestTokenizer asciiLower id tinyConf) (ramDict (["apple".toList].map utf8)) = .ok (b, hd) ∧
    indexJobOps toyRoaring G (fun _ m => m) (fun b => [b]) (fun b => [b]) "d" (suggestTokenizer asciiLower id tinyConf)
      (ramDict (["apple".toList].map utf8)) = .ok ([.truncateDict, .finishDict (ramDict (["apple".toList].map utf8))] ++
        (commitOpsFS (writerConfig "d") [b] [G.encode hd]).map .index) := by
  obtain ⟨G, _⟩ := gob_contract_satisfiable
  obtain ⟨b, _, hd, _, h, _⟩ := C77_wrong_postings
  refine ⟨G, b, hd, h, ?_⟩
  unfold indexJobOps
  rw [h]

end Verif.Props
