import Verif.Spec.Suggest
/- What Predict of the spell checker should compute. Does not import the model. -/
namespace Verif.Spec

/-- The `K` words with the best score among those that contain all n-grams of the query word (none, if it has no n-grams). -/
def completions {S : Type} [LinearOrder S] (docs : List Doc) (q : List String) (score : Nat → S) (K : Nat) : List Nat :=
  if q = [] then [] else (best K ((containing docs q).map fun id => ⟨id, score id⟩)).map Candidate.key

/-- The `K` words most similar to the query word. -/
noncomputable def similarWords (docs : List Doc) (q : List String) (α : ℝ) (K : Nat) : List Nat :=
  (suggestAnswer cosineSim docs q α K).map Candidate.key

/-- The words considered for the last word of the query, where `qp` are its n-grams as the beginning of a word and `q` its
n-grams as a whole word: the completions and, if there are fewer than `K` of them, also the similar words. -/
noncomputable def predictWords (docs : List Doc) (qp q : List String) (score : Nat → ℝ) (α : ℝ) (K : Nat) : List Nat :=
  if (completions docs qp score K).length < K then
    completions docs qp score K ++ (similarWords docs q α K).filter (· ∉ completions docs qp score K)
  else completions docs qp score K

/-- Highest score first; words of equal score stay in order. -/
def byScore {S : Type} [LinearOrder S] (score : Nat → S) (ids : List Nat) : List Nat := ids.mergeSort fun i j => decide (score j ≤ score i)

end Verif.Spec
