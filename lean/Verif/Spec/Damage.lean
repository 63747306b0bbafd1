import Verif.Model.Index
/- Vocabulary for C86: what may happen when the files of an index have been damaged. -/
namespace Verif

/-- The error is an ordinary error value handed to the caller: not a Go panic, and not the marker by which the model says
"this loop did not end". -/
def Err.Reported (e : Err) : Prop := e.isPanic = false ∧ e ≠ loopBound

/-- A call that ended and answered: no error, or an error value. -/
def Answered : Option Err → Prop
  | none => True
  | some e => e.Reported

/-- What is assumed of the bitmap library on *arbitrary* buffers: `FromBuffer` returns an error or a bitmap, does not
panic, and the iterator of an accepted bitmap delivers at most `GetCardinality()` elements (`Left it n` = "`it` delivers at
most `n` more elements"). -/
structure Roaring.Robust (ρ : Roaring) where
  Left : ρ.It → Nat → Prop
  reject : ∀ buf e, ρ.fromBuffer buf = .error e → e.Reported
  accept : ∀ buf b, ρ.fromBuffer buf = .ok b → Left (ρ.iterator b) (ρ.cardinality b)
  next : ∀ it n, Left it n → ρ.hasNext it = true → ∃ m, n = m + 1 ∧ Left (ρ.next it).2 m
  advance : ∀ it n bnd, Left it n → Left (ρ.advanceIfNeeded it bnd) n

/-- What is assumed of encoding/gob on *arbitrary* bytes: decoding returns a header or an error, it does not panic. -/
def Gob.Robust (G : Gob) : Prop := ∀ b e, G.decode b = .error e → e.Reported

/-- The same opened index with a document list that was cut after `n` bytes. -/
def OpenIndex.cut (oi : OpenIndex) (n : Nat) : OpenIndex := ⟨⟨oi.docs.buf.take n, oi.docs.i⟩, oi.tables⟩

/-- The same files with the file `name` cut after `n` bytes. -/
def Files.cutFile (fs : Files) (name : String) (n : Nat) : Files := fun x => if x = name then (fs x).map (·.take n) else fs x

end Verif
