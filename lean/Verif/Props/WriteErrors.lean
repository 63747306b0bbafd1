import Verif.Proofs.WriteErrors
import Verif.Props.Index
import Verif.Props.LMStore
import Verif.Props.NGramFiles
/-!
# C85: a write that fails is reported, and success means that exactly the right bytes are in the files

The device is arbitrary: any system call (creating a file, writing to it) may fail with any error, and a failing write may have written
any part of its bytes. `split` is the way the libraries (encoding/gob, roaring) divide what they write into `Write` calls.
-/
namespace Verif.Props
open Verif Verif.Spec Verif.Faulty

section
variable (dev : Device) {ρ : Roaring} (L : ρ.Lawful) {G : Gob} (LG : G.Lawful) {order : Nat → TermMap → TermMap}
  (ho : ∀ i m, (order i m).Perm m) {split : List UInt8 → List (List UInt8)} (hs : ∀ b, (split b).flatten = b)

include L ho hs in
/-- **C85** (index) For all documents, every device and whatever is on the disk: `Commit` returns an error if and only if one of the
system calls it made failed; and it changes no other file. -/
theorem C85_index_reported (cfg : WriterConfig) (hne : cfg.header ≠ cfg.docs) (docs : List Doc) (hd : GoodDocs docs) (hf : FirstNonempty docs)
    {ix : Indices} (hix : addDocuments (docs.map fun d => (d.id, d.terms)) [] = .ok ix) (s : Disk) {r : Option Err} {s' : Disk}
    (hrun : wCommit dev ρ G split cfg order ix s = (r, s')) :
    (r ≠ none ↔ Failed dev s.calls s'.calls) ∧ ∀ n, n ≠ cfg.docs → n ≠ cfg.header → s'.files n = s.files n := by
  obtain ⟨dw, hw, ix', bytes, h, e1, e2, e3, e4⟩ := C19_commit_succeeds L ho G docs hd hf
  rw [hix] at e1
  cases e1
  have := wCommit_spec (dev := dev) (G := G) hs hne e2 s
  unfold spec at this
  rw [hrun] at this
  exact ⟨this.result, this.files⟩

include L LG ho hs in
/-- **C85** (index) If `Commit` returns no error, then the index can be opened from the files and shows exactly the documents — although
the writes on the way may have been in any number and size. (Files up to 4 GiB, and not empty: C21, C22.) -/
theorem C85_index_success (cfg : WriterConfig) (hne : cfg.header ≠ cfg.docs) (docs : List Doc) (hd : GoodDocs docs) (hf : FirstNonempty docs)
    {ix : Indices} (hix : addDocuments (docs.map fun d => (d.id, d.terms)) [] = .ok ix) (s s' : Disk)
    (hrun : wCommit dev ρ G split cfg order ix s = (none, s')) :
    ∃ data, s'.files cfg.docs = some data ∧ (data.length < 2 ^ 32 → data ≠ [] →
      ∃ oi, readIndex G cfg (openFS s'.files) = .ok oi ∧ Shows ρ oi (postings docs) ∧ oi.size = maxCard docs) := by
  obtain ⟨dw, hw, ix', bytes, h, e1, e2, e3, e4⟩ := C19_commit_succeeds L ho G docs hd hf
  rw [hix] at e1
  cases e1
  have hsp := wCommit_spec (dev := dev) (G := G) hs hne e2 s
  unfold spec at hsp
  rw [hrun] at hsp
  obtain ⟨f1, f2⟩ := hsp.bytes rfl
  refine ⟨bytes, f1, fun h32 h0 => ?_⟩
  obtain ⟨h', g1, g2, g3⟩ := writes_spec L ho (G := G) (dw := [bytes]) (hw := [G.encode h]) hd hf ⟨ix, bytes, h, hix, e2, by simp, by simp⟩
  simp only [List.flatten_cons, List.flatten_nil, List.append_nil] at g1 g3
  obtain ⟨tables, g4, g5⟩ := g3 h32
  refine ⟨⟨⟨bytes, 0⟩, tables⟩, readIndex_ok LG (h := h') (rest := []) ?_ g2 (openFS_some f1 h0) g4, ?_, ?_⟩
  · rw [List.append_nil, ← g1]
    exact openFS_some f2 (by rw [g1]; exact encode_ne LG h')
  · exact Shows.of_ok (L := L) (n := maxCard docs) (by simpa using g5 0 [])
  · simpa using (g5 0 []).size

end

/-- **C85** (language model) Writing the binary file returns an error if and only if a system call failed; no other file changes; and
without an error the file contains exactly the bytes of the model. -/
theorem C85_binary_reported (dev : Device) (name : String) (vs : List PackedArray) (table : MPH) (s : Disk) {r : Option Err} {s' : Disk}
    (hrun : wBinary dev name vs table s = (r, s')) :
    (r ≠ none ↔ Failed dev s.calls s'.calls) ∧ (∀ n, n ≠ name → s'.files n = s.files n) ∧ (r = none → s'.files name = some (lmStore vs table)) := by
  have := wBinary_wrote (dev := dev) (name := name) (vs := vs) (table := table) s
  unfold spec at this
  rw [hrun] at this
  exact ⟨this.result, this.files, this.bytes⟩

/-- **C85** (language model) … and loads as the model that was stored. -/
theorem C85_binary_success (dev : Device) (name : String) (vs : List PackedArray) (hn : vs.length < 256) (hs : ∀ v ∈ vs, Storable v) (m : MPH)
    (hl : m.values.length < 2 ^ 32 ∧ m.auxiliary.length < 2 ^ 32)
    (hv : ∀ v ∈ m.values, v < 2 ^ 32) (ha : ∀ a ∈ m.auxiliary, -2 ^ 31 ≤ a ∧ a < 2 ^ 31) (s s' : Disk)
    (hrun : wBinary dev name vs m s = (none, s')) : ∃ data, s'.files name = some data ∧ lmLoad data = .ok (vs, m) :=
  ⟨_, (C85_binary_reported dev name vs m s hrun).2.2 rfl, C48_binary_roundtrip vs hn hs m hl hv ha⟩

/-- **C85** (n-gram files) For every trie of counts and every order of its maps: writing the files returns an error if and only if a system
call failed; no other file changes; and without an error every file `1-gm`, `2-gm`, … contains exactly the text that is written when
nothing fails (C49, C62). -/
theorem C85_ngrams_reported (dev : Device) (h : List (List Bytes × Nat)) (voc : List Bytes) (hvs : voc.length < 2 ^ 32)
    (hv : ∀ pc ∈ h, ∀ w ∈ pc.1, w ∈ voc) {order : Nat} (name : Nat → String)
    (hn : ∀ i j, i < order → j < order → name i = name j → i = j) {ord : List Bytes → List (Nat × CTNode) → List (Nat × CTNode)}
    (ho : AnyOrder ord) {texts : List Bytes} (ht : nGramWrite order (afterPuts h) ord = .ok texts) (s : Disk) {r : Option Err} {s' : Disk}
    (hrun : wNGrams dev name order (afterPuts h) ord s = (r, s')) :
    (r ≠ none ↔ Failed dev s.calls s'.calls) ∧ (∀ n, (∀ i, i < order → n ≠ name i) → s'.files n = s.files n) ∧
      (r = none → ∀ i, i < order → s'.files (name i) = texts[i]?) := by
  obtain ⟨calls, hw, _⟩ := walk_eq (trieInv_after hvs h hv) ho
  have := wNGrams_spec (dev := dev) hn hw ht s
  unfold spec at this
  rw [hrun] at this
  exact ⟨this.result, this.files, this.bytes⟩

/-- C85. The encoder of short posting lists itself does not report an error that says "end of file": after 4096 bytes the buffer is full,
the write behind the next list fails, `Encode` returns that it wrote nothing, and no error; only `Close` reports it. -/
theorem C85_encode_swallows_eof (ρ : Roaring) (split : List UInt8 → List (List UInt8)) :
    ∃ (dev : Device) (s : Disk), s = (write dev 0 (List.replicate 4096 7) (createOutput dev "docs" emptyDisk).2).2 ∧
      (wEncode dev ρ split 0 [5] s).1 = (0, none) ∧ Failed dev s.calls (wEncode dev ρ split 0 [5] s).2.calls ∧
      (close dev 0 (wEncode dev ρ split 0 [5] s).2).1 = some .eof := by
  refine ⟨fun i => if i = 1 then some (0, .eof) else none, _, rfl, ?_⟩
  have e : ∀ dev : Device, wEncode dev ρ split 0 [5] = wVarInt dev 0 [5] 0 := fun dev => if_pos (by decide)
  rw [e]
  exact ⟨by decide +kernel, ⟨1, by decide +kernel, by decide +kernel, by decide⟩, by decide +kernel⟩

/-! ### Concrete cases -/

/-- A disk that is full after two system calls. -/
def fullAfterTwo : Device := fun i => if i < 2 then none else some (3, .other "no space left on device")

/-- A small hash table. -/
def smallTable : MPH := { values := [7, 8], auxiliary := [-1, 2] }

/-- A small model: writing it makes two system calls (create, flush at the end) and succeeds on this disk; the file has the bytes. -/
example : (wBinary fullAfterTwo "lm" [] smallTable emptyDisk).1 = none ∧
    (wBinary fullAfterTwo "lm" [] smallTable emptyDisk).2.calls = 2 ∧
    (wBinary fullAfterTwo "lm" [] smallTable emptyDisk).2.files "lm" = some (lmStore [] smallTable) := by decide +kernel

/-- A second file no longer fits: the error is returned (and three bytes are there when the file could be created). -/
example : (wBinary (fun i => fullAfterTwo (i + 1)) "lm" [] smallTable emptyDisk).1 = some (.other "no space left on device") ∧
    (wBinary (fun i => fullAfterTwo (i + 1)) "lm" [] smallTable emptyDisk).2.files "lm" = some ((lmStore [] smallTable).take 3) := by
  decide +kernel

/-- The names of the n-gram files. -/
def gmName (i : Nat) : String := if i = 0 then "1-gm" else "2-gm"

/-- The hypotheses of the n-gram theorem are met, and both outcomes occur: with three system calls allowed the last flush fails. -/
example : (∀ i j, i < 2 → j < 2 → gmName i = gmName j → i = j) ∧
    nGramWrite 2 (afterPuts abHistory) (fun _ l => l) = .ok [[97, 9, 50, 10, 98, 9, 49, 10], [97, 32, 98, 9, 49, 10]] ∧
    (wNGrams (fun _ => none) gmName 2 (afterPuts abHistory) (fun _ l => l) emptyDisk).1 = none ∧
    (wNGrams (fun _ => none) gmName 2 (afterPuts abHistory) (fun _ l => l) emptyDisk).2.files "2-gm" = some [97, 32, 98, 9, 49, 10] ∧
    (wNGrams (fun i => if i < 3 then none else some (0, .eof)) gmName 2 (afterPuts abHistory) (fun _ l => l) emptyDisk).1 = some .eof := by
  refine ⟨fun i j hi hj h => ?_, by decide +kernel, by decide +kernel, by decide +kernel, by decide +kernel⟩
  have : ∀ i, i < 2 → ∀ j, j < 2 → gmName i = gmName j → i = j := by decide
  exact this i hi j hj h

/-- The hypotheses of the index theorems are met by concrete documents and libraries: on a device that never fails the commit succeeds,
on one that always fails it does not. -/
theorem C85_index_example : ∃ (ρ : Roaring) (_ : ρ.Lawful) (G : Gob) (_ : G.Lawful) (ix : Indices),
    addDocuments (exampleDocs.map fun d => (d.id, d.terms)) [] = .ok ix ∧ GoodDocs exampleDocs ∧ FirstNonempty exampleDocs ∧
    (wCommit (fun _ => none) ρ G (fun b => [b]) ⟨"h", "d"⟩ (fun _ m => m) ix emptyDisk).1 = none ∧
    (wCommit (fun _ => some (0, .eof)) ρ G (fun b => [b]) ⟨"h", "d"⟩ (fun _ m => m) ix emptyDisk).1 = some .eof := by
  obtain ⟨ρ, L, G, LG, dw, hw, ⟨ix, bytes, h, h1, h2, h3, h4⟩, _⟩ := example_writes
  refine ⟨ρ, L, G, LG, ix, h1, exampleDocs_good.1, exampleDocs_good.2, ?_, rfl⟩
  generalize hr : wCommit (fun _ => none) ρ G (fun b => [b]) ⟨"h", "d"⟩ (fun _ m => m) ix emptyDisk = R
  obtain ⟨r, s'⟩ := R
  have := (C85_index_reported (fun _ => none) L (fun _ _ => .refl _) (fun b => by simp) ⟨"h", "d"⟩ (by decide) exampleDocs exampleDocs_good.1
    exampleDocs_good.2 h1 emptyDisk hr).1
  by_cases hn : r = none
  · exact hn
  · obtain ⟨i, _, _, hx⟩ := this.1 hn
    exact absurd rfl hx

end Verif.Props
