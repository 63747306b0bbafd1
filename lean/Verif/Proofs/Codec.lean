import Verif.Proofs.SkipList
import Mathlib.Data.List.Sort
import Mathlib.Data.Finset.Sort
namespace Verif
open Spec

theorem BitmapList.init_rep_dedup {ρ : Roaring} (L : ρ.Lawful) {l m : List Nat} {n : Nat}
    (hne : l ≠ []) (hl : ∀ x ∈ l, x < 2 ^ 32) (hm : m.Pairwise (· < ·)) (hmem : ∀ x, x ∈ m ↔ x ∈ l) :
    ∃ s, init ρ ⟨n, ⟨ρ.writeTo l, 0⟩⟩ = .ok s ∧ Rep L s (Iter.start m) := by
  obtain ⟨b, s, h1, h2, h3, h4, h5⟩ := L.roundtrip l hl
  have heq : s = m := List.Perm.eq_of_pairwise (fun a b _ _ h h' => by omega) h2 hm
    ((List.perm_ext_iff_of_nodup (h2.imp fun h => by omega) (hm.imp fun h => by omega)).2
      (fun x => by rw [h3, hmem]))
  subst heq
  obtain ⟨x, xs, rfl⟩ : ∃ x xs, s = x :: xs := by
    cases s with
    | nil =>
      obtain ⟨y, ys, rfl⟩ : ∃ y ys, l = y :: ys := by cases l <;> simp_all
      exact absurd ((hmem y).2 (by simp)) (by simp)
    | cons x xs => exact ⟨x, xs, rfl⟩
  obtain ⟨e1, e2⟩ := L.next_eq _ _ _ h5
  refine ⟨⟨(ρ.next (ρ.iterator b)).2, (ρ.next (ρ.iterator b)).1, true, ρ.cardinality b⟩, ?_,
    h4, .inr ⟨x, xs, rfl, rfl, e1, e2⟩⟩
  unfold init
  simp [h1, L.hasNext_iff _ _ h5]

namespace PList
variable {ρ : Roaring}

/-- Representation relation of the three implementations. -/
def Rep (L : ρ.Lawful) : PList ρ → Iter → Prop
  | .vb s, t => VBList.sim.Rep s t
  | .skip s, t => (SkipList.sim 63).Rep s t
  | .bitmap s, t => (BitmapList.sim L).Rep s t

/-- The sum of the three implementations simulates the abstract iterator. -/
def sim (L : ρ.Lawful) : IterSim (PList ρ) where
  Rep := Rep L
  get := by
    rintro (s | s | s) t h
    · exact VBList.sim.get h
    · exact (SkipList.sim 63).get h
    · exact (BitmapList.sim L).get h
  hasNext := by
    rintro (s | s | s) t h
    · exact VBList.sim.hasNext h
    · exact (SkipList.sim 63).hasNext h
    · exact (BitmapList.sim L).hasNext h
  next := by
    rintro (s | s | s) t h
    · exact VBList.sim.next h
    · exact (SkipList.sim 63).next h
    · exact (BitmapList.sim L).next h
  lowerBound := by
    rintro (s | s | s) t bnd h
    · exact VBList.sim.lowerBound bnd h
    · exact (SkipList.sim 63).lowerBound bnd h
    · exact (BitmapList.sim L).lowerBound bnd h
  len := by
    rintro (s | s | s) t h
    · exact VBList.sim.len h
    · exact (SkipList.sim 63).len h
    · exact (BitmapList.sim L).len h

end PList

theorem openPList_rep {ρ : Roaring} (L : ρ.Lawful) {l : List Nat} (stale : SkipList) (hne : l ≠ [])
    (hl : ∀ x ∈ l, x < 2 ^ 32) (hs : l.Pairwise (· ≤ ·))
    (hor : l.Pairwise (· < ·) ∨ l.length ≤ 256) :
    ∃ bytes s, codecEncode ρ l = .ok (bytes, bytes.length) ∧
      openPList ρ stale ⟨l.length, ⟨bytes, 0⟩⟩ = .ok s ∧ PList.Rep L s (Iter.start l) := by
  by_cases h1 : l.length ≤ skippingGapSize + 1
  · obtain ⟨s, e1, e2⟩ := VBList.init_rep (rest := []) hne hl
    rw [List.append_nil] at e1
    refine ⟨varIntEncode l 0, .vb s, ?_, ?_, e2⟩
    · simp only [codecEncode, if_pos h1, vbEncode, varIntEncodeTotal_eq]
    · simp only [openPList, if_pos h1, e1]; rfl
  · by_cases h2 : l.length ≤ maxSkippingLen
    · have hg : 63 + 1 < maxSkippingGap := by decide
      obtain ⟨s, e1, e2⟩ := SkipList.init_rep hg (rest := []) (old := pooledSkip stale) rfl hne hl hs
      rw [List.append_nil] at e1
      refine ⟨skipBytes 63 l 0, .skip s, ?_, ?_, e2⟩
      · simp only [codecEncode, if_neg h1, if_pos h2]
        have h1' : ¬ l.length ≤ 65 := h1
        have : skipEncode ((skippingGapSize : Nat) : Int) l.length l
            = some (.ok (skipBytes 63 l 0, (skipBytes 63 l 0).length)) := by
          unfold skipEncode
          rw [if_neg (by simp only [skippingGapSize]; omega), if_neg (by omega), Int.toNat_natCast,
            show skippingGapSize = 63 + 1 from rfl, skipEncLoop_eq hg (Nat.le_refl _)]
          rfl
        rw [this]
      · simp only [openPList, if_neg h1, if_pos h2, e1]; rfl
    · have hs' : l.Pairwise (· < ·) := by
        rcases hor with h | h
        · exact h
        · exact absurd h h2
      obtain ⟨s, e1, e2⟩ := BitmapList.init_rep L (n := l.length) hne hl hs'
      refine ⟨ρ.writeTo l, .bitmap s, ?_, ?_, e2⟩
      · simp only [codecEncode, if_neg h1, if_neg h2]
      · simp only [openPList, if_neg h1, if_neg h2, e1]; rfl

/-- An encoded posting list is never empty. -/
theorem codecEncode_ne {ρ : Roaring} (L : ρ.Lawful) {l : List Nat} (hne : l ≠ [])
    (hl : ∀ x ∈ l, x < 2 ^ 32) (hs : l.Pairwise (· ≤ ·)) (hor : l.Pairwise (· < ·) ∨ l.length ≤ 256)
    {bytes : List UInt8} {n : Nat} (h : codecEncode ρ l = .ok (bytes, n)) : bytes ≠ [] := by
  rintro rfl
  have stale : SkipList := ⟨⟨[], 0⟩, 0, 0, 0, 0, 0, 0, false⟩
  obtain ⟨b, s, e1, e2, _⟩ := openPList_rep L stale hne hl hs hor
  rw [h] at e1
  simp only [Except.ok.injEq, Prod.mk.injEq] at e1
  obtain ⟨rfl, _⟩ := e1
  unfold openPList at e2
  simp only at e2
  split at e2
  · simp [VBList.init, BytesInput.readVUInt32, Except.map] at e2
  · split at e2
    · simp [SkipList.init, SkipList.readSkipping, BytesInput.readUInt16, BytesInput.read, Except.map] at e2
    · rename_i h1 h2
      simp only [codecEncode, if_neg h1, if_neg h2, Except.ok.injEq, Prod.mk.injEq] at h
      exact L.nonempty l hne h.1

/-! ### A library that satisfies the contract -/

/-- Decode groups of four bytes. -/
def toyDecode : List UInt8 → List Nat
  | a :: b :: c :: d :: rest =>
    (a.toNat + 256 * (b.toNat + 256 * (c.toNat + 256 * d.toNat))) :: toyDecode rest
  | _ => []

/-- Encode numbers in four bytes. -/
def toyEncode (l : List Nat) : List UInt8 :=
  l.flatMap fun v => [UInt8.ofNat v, UInt8.ofNat (v / 256), UInt8.ofNat (v / 65536), UInt8.ofNat (v / 16777216)]

theorem toyDecode_encode (l : List Nat) (h : ∀ x ∈ l, x < 2 ^ 32) : toyDecode (toyEncode l) = l := by
  induction l with
  | nil => rfl
  | cons x xs ih =>
    have hx := h x (by simp)
    have := ih (fun y hy => h y (by simp [hy]))
    simp only [toyEncode, List.flatMap_cons, List.cons_append, List.nil_append, toyDecode] at this ⊢
    rw [this]
    simp only [List.cons.injEq, and_true, UInt8.toNat_ofNat']
    omega

/-- Toy bitmap library. -/
def toyRoaring : Roaring where
  Bitmap := List Nat
  It := List Nat
  writeTo l := toyEncode (l.toFinset.sort (· ≤ ·))
  fromBuffer b := .ok (toyDecode b)
  iterator b := b
  cardinality b := b.length
  hasNext b := !b.isEmpty
  next b := (b.headD 0, b.tail)
  advanceIfNeeded b bnd := b.dropWhile (· < bnd)

/-- It satisfies the contract. -/
def toyLawful : toyRoaring.Lawful where
  Rep it rem := it = rem
  hasNext_iff := by rintro it rem rfl; rfl
  next_eq := by rintro it x rem rfl; exact ⟨rfl, rfl⟩
  advance := by rintro it rem bnd rfl; rfl
  roundtrip := by
    intro l hl
    have hd : toyDecode (toyEncode (l.toFinset.sort (· ≤ ·))) = l.toFinset.sort (· ≤ ·) :=
      toyDecode_encode _ (fun x hx => hl x (by simpa using hx))
    refine ⟨l.toFinset.sort (· ≤ ·), l.toFinset.sort (· ≤ ·), ?_, ?_, ?_, rfl, rfl⟩
    · simp only [toyRoaring, hd]
    · exact (Finset.sortedLT_sort _).pairwise
    · simp
  nonempty := by
    intro l hl h
    obtain ⟨x, hx⟩ := List.exists_mem_of_ne_nil l hl
    have h1 : x ∈ l.toFinset.sort (· ≤ ·) := by simpa using hx
    obtain ⟨y, ys, e⟩ : ∃ y ys, l.toFinset.sort (· ≤ ·) = y :: ys := by
      cases h' : l.toFinset.sort (· ≤ ·) with
      | nil => rw [h'] at h1; simp at h1
      | cons y ys => exact ⟨y, ys, rfl⟩
    simp [toyRoaring, toyEncode, e] at h

end Verif
