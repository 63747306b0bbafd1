import Verif.Model.CDBRead
/-
What it means to walk through a list of records.
-/
namespace Verif.CDBRead
open Verif

/-- The bytes `b` are in the file from position `at` on. -/
def At (file : Bytes) (at' : Nat) (b : Bytes) : Prop := at' + b.length ≤ file.length ∧ (file.drop at').take b.length = b

/-- The records `c` are in the file at the positions `ps`. -/
def Stored (file : Bytes) (ps : List RecPos) (c : CDB) : Prop :=
  List.Forall₂ (fun p e => p.keySize = e.1.length ∧ p.valueSize = e.2.length ∧ At file p.keyAt e.1 ∧ At file p.valueAt e.2) ps c

/-- Every pair is passed to the callback, in order, until it reports an error. -/
def visit {σ : Type} (f : σ → Nat → Bytes → σ × Option Err) : Dict → σ → σ × Option Err
  | [], s => (s, none)
  | (k, v) :: rest, s =>
    match f s k v with
    | (s', some e) => (s', some e)
    | (s', none) => visit f rest s'

end Verif.CDBRead
