/-
Independent specification of the contents of an index. Does not import the model.
-/
namespace Verif.Spec

/-- A document handed to the index: id and terms. -/
structure Doc where
  id : Nat
  terms : List String
  deriving DecidableEq, Repr

/-- The posting list of term `t` among the documents with exactly `c` terms: the ids of the documents containing
`t`, in the order of addition. -/
def postings (docs : List Doc) (c : Nat) (t : String) : List Nat :=
  (docs.filter fun d => decide (d.terms.length = c) && decide (t ∈ d.terms)).map Doc.id

/-- Documents with ascending ids and without repeated terms, as the builder hands them over; sizes fit in `uint32`. -/
structure GoodDocs (docs : List Doc) : Prop where
  ids : docs.Pairwise (fun a b => a.id < b.id)
  id32 : ∀ d ∈ docs, d.id < 2 ^ 32
  terms : ∀ d ∈ docs, d.terms.Nodup
  card : ∀ d ∈ docs, d.terms.length + 1 < 2 ^ 32
  count : docs.length < 2 ^ 32

/-- The counters of the search suffice for the query `q`: it has fewer than 2³¹ terms, and no document has more than 65535 of
them. -/
structure FewCommon (docs : List Doc) (q : List String) : Prop where
  len : q.length < 2 ^ 31
  common : ∀ d ∈ docs, (q.filter (· ∈ d.terms)).length ≤ 0xFFFF

/-- Every query with at most 65535 terms is one. -/
theorem FewCommon.of_short {docs : List Doc} {q : List String} (h : q.length ≤ 0xFFFF) : FewCommon docs q :=
  ⟨by omega, fun _ _ => Nat.le_trans (List.length_filter_le _ _) h⟩

end Verif.Spec
