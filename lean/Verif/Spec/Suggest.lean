import Verif.Spec.TopK
import Verif.Spec.Index
import Verif.Spec.Metric
/-
Independent specification of fuzzy search. Does not import the model.
-/
namespace Verif.Spec

/-- How many of the query terms does the document contain? -/
def shared (q : List String) (d : Doc) : Nat := (q.filter (· ∈ d.terms)).length

open Classical in
/-- The answer to a fuzzy search: the `K` best of all documents whose similarity `sim |query| |document| |shared|` is
at least `α`, with the similarity as score, best first (ties: smaller document id first). -/
noncomputable def suggestAnswer (sim : Nat → Nat → Nat → ℝ) (docs : List Doc) (q : List String) (α : ℝ) (K : Nat) :
    List (Candidate ℝ) :=
  best K ((docs.filter fun d => decide (α ≤ sim q.length d.terms.length (shared q d))).map
    fun d => ⟨d.id, sim q.length d.terms.length (shared q d)⟩)

/-- The ids of the documents that contain all query terms, in the order of the documents. -/
def containing (docs : List Doc) (q : List String) : List Nat :=
  (docs.filter fun d => q.all fun t => decide (t ∈ d.terms)).map Doc.id

end Verif.Spec
