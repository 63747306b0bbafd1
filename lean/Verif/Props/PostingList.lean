import Verif.Proofs.Codec
/-!
Property theorems C08–C11 (pkg/index posting lists and codec).

`ListIter.run s ops` = everything a caller observes of the concrete iterator during the history
`ops` of Get / HasNext / Next / LowerBound / Len calls; `(Iter.start l).run ops` = what the
specification iterator over the in-memory list `l` (Verif/Spec/Iterator.lean) shows.
-/
namespace Verif.Props
open Verif Spec

/-- **C08** An iterator opened on the VB encoding of any nonempty list of `uint32` (any bytes may
follow) shows, in every history of operations, exactly what the iterator over the list shows. The
list need not be sorted. -/
theorem C08_vb_iterator (l : List Nat) (after : List UInt8) (hne : l ≠ [])
    (hl : ∀ x ∈ l, x < 2 ^ 32) :
    ∃ s, VBList.init ⟨l.length, ⟨(vbEncode l).1 ++ after, 0⟩⟩ = .ok s ∧
      ∀ ops, ListIter.run s ops = (Iter.start l).run ops := by
  obtain ⟨s, h1, h2⟩ := VBList.init_rep (rest := after) hne hl
  exact ⟨s, h1, fun ops => VBList.sim.run h2 ops⟩

example : [3, 5, 2 ^ 32 - 1] ≠ [] ∧ ∀ x ∈ [3, 5, 2 ^ 32 - 1], x < 2 ^ 32 := by decide

/-- **C08** the slice iterator used in memory is the same abstract iterator (sorted lists). -/
theorem C08_slice_iterator (l : List Nat) (hs : l.Pairwise (· ≤ ·)) (ops : List ItOp) :
    ListIter.run (SliceIter.new l) ops = (Iter.start l).run ops :=
  SliceIter.sim.run (SliceIter.rep_new hs) ops

/-- **C09** An iterator opened (on a pooled object with arbitrary stale contents `old`) on the
skip encoding with gap `gap` of any sorted list with at least `gap` elements shows in every history exactly
what the iterator over the list shows; in particular after `LowerBound` jumped over blocks. -/
theorem C09_skipping_iterator (gap : Nat) (l : List Nat) (after : List UInt8) (old : SkipList)
    (fuel : Nat) (hacc : skippingNew gap = .ok gap) (h1 : 1 ≤ gap) (hold : old.skippingGap = gap)
    (hlen : gap ≤ l.length) (hf : l.length ≤ fuel)
    (hl : ∀ x ∈ l, x < 2 ^ 32) (hsort : l.Pairwise (· ≤ ·)) :
    ∃ bytes total s, skipEncode gap fuel l = some (.ok (bytes, total)) ∧
      SkipList.init old ⟨l.length, ⟨bytes ++ after, 0⟩⟩ = .ok s ∧
      ∀ ops, ListIter.run s ops = (Iter.start l).run ops := by
  obtain ⟨g, rfl⟩ : ∃ g, gap = g + 1 := ⟨gap - 1, by omega⟩
  have hg : g + 1 < maxSkippingGap := by
    unfold skippingNew at hacc
    split at hacc
    · simp at hacc
    · omega
  have henc : skipEncode ((g + 1 : Nat) : Int) fuel l
      = some (.ok (skipBytes g l 0, (skipBytes g l 0).length)) := by
    unfold skipEncode
    rw [if_neg (by omega), if_neg (by omega), Int.toNat_natCast, skipEncLoop_eq hg hf]
    rfl
  obtain ⟨s, e1, e2⟩ := SkipList.init_rep hg (rest := after) hold
    (by intro h; simp [h] at hlen) hl hsort
  exact ⟨_, _, s, henc, e1, fun ops => (SkipList.sim g).run e2 ops⟩

example : skippingNew (64 : Nat) = .ok (64 : Nat) := by decide

example : ∃ l : List Nat, 64 ≤ l.length ∧ (∀ x ∈ l, x < 2 ^ 32) ∧ l.Pairwise (· ≤ ·) :=
  ⟨List.range 200, by simp, fun x hx => by have := List.mem_range.1 hx; omega,
    List.pairwise_lt_range.imp fun h => by omega⟩

/-- **C10** Given the contract of the bitmap library, the bitmap posting list shows in every history
exactly what the iterator over the strictly sorted list of members shows. -/
theorem C10_bitmap_iterator (ρ : Roaring) (L : ρ.Lawful) (l : List Nat) (n : Nat) (hne : l ≠ [])
    (hl : ∀ x ∈ l, x < 2 ^ 32) (hs : l.Pairwise (· < ·)) :
    ∃ s, BitmapList.init ρ ⟨n, ⟨ρ.writeTo l, 0⟩⟩ = .ok s ∧
      ∀ ops, ListIter.run s ops = (Iter.start l).run ops := by
  obtain ⟨s, h1, h2⟩ := BitmapList.init_rep L (n := n) hne hl hs
  exact ⟨s, h1, fun ops => (BitmapList.sim L).run h2 ops⟩

/-- **C10** For a list with repetitions (sorted, as the writer produces it from duplicate tokens) the
bitmap posting list shows the list of *distinct* members. -/
theorem C10_bitmap_iterator_dedup (ρ : Roaring) (L : ρ.Lawful) (l s : List Nat) (n : Nat) (hne : l ≠ [])
    (hl : ∀ x ∈ l, x < 2 ^ 32) (hs : s.Pairwise (· < ·)) (hmem : ∀ x, x ∈ s ↔ x ∈ l) :
    ∃ it, BitmapList.init ρ ⟨n, ⟨ρ.writeTo l, 0⟩⟩ = .ok it ∧
      ∀ ops, ListIter.run it ops = (Iter.start s).run ops := by
  obtain ⟨it, h1, h2⟩ := BitmapList.init_rep_dedup L (n := n) hne hl hs hmem
  exact ⟨it, h1, fun ops => (BitmapList.sim L).run h2 ops⟩

/-- A library meeting the contract exists (so C10, C11 are not vacuous): 4 little-endian bytes per
member of the sorted set. -/
theorem C10_contract_satisfiable : Nonempty (Σ ρ : Roaring, ρ.Lawful) := ⟨⟨toyRoaring, toyLawful⟩⟩

/-- **C11** For every nonempty strictly ascending list of `uint32`, of any length, encoding succeeds,
reports the number of bytes written, and the posting list that the reader resolves for that length
(whatever pooled object it gets) opened on those bytes shows in every history exactly the list written. -/
theorem C11_codec (ρ : Roaring) (L : ρ.Lawful) (l : List Nat) (stale : SkipList) (hne : l ≠ [])
    (hl : ∀ x ∈ l, x < 2 ^ 32) (hs : l.Pairwise (· < ·)) :
    ∃ bytes s, codecEncode ρ l = .ok (bytes, bytes.length) ∧
      openPList ρ stale ⟨l.length, ⟨bytes, 0⟩⟩ = .ok s ∧
      ∀ ops, ListIter.run s ops = (Iter.start l).run ops := by
  obtain ⟨bytes, s, h1, h2, h3⟩ := openPList_rep L stale hne hl (hs.imp fun h => by omega)
    (.inl hs)
  exact ⟨bytes, s, h1, h2, fun ops => (PList.sim L).run h3 ops⟩

/-- **C11** also for lists with repeated elements as long as the bitmap format is not chosen. -/
theorem C11_codec_short (ρ : Roaring) (L : ρ.Lawful) (l : List Nat) (stale : SkipList) (hne : l ≠ [])
    (hl : ∀ x ∈ l, x < 2 ^ 32) (hs : l.Pairwise (· ≤ ·)) (hlen : l.length ≤ 256) :
    ∃ bytes s, codecEncode ρ l = .ok (bytes, bytes.length) ∧
      openPList ρ stale ⟨l.length, ⟨bytes, 0⟩⟩ = .ok s ∧
      ∀ ops, ListIter.run s ops = (Iter.start l).run ops := by
  obtain ⟨bytes, s, h1, h2, h3⟩ := openPList_rep L stale hne hl hs (.inr hlen)
  exact ⟨bytes, s, h1, h2, fun ops => (PList.sim L).run h3 ops⟩

example : (List.range 1000) ≠ [] ∧ (∀ x ∈ List.range 1000, x < 2 ^ 32) ∧
    (List.range 1000).Pairwise (· < ·) :=
  ⟨by simp, fun x hx => by have := List.mem_range.1 hx; omega, List.pairwise_lt_range⟩

end Verif.Props
