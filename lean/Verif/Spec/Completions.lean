import Verif.Spec.WordSearch
/-
Independent specification of completions: the words listed for a prefix typed by a user, any prefix. Does not import the model.
-/
namespace Verif.Spec.WordConf
variable (c : WordConf)

/-- The words listed for a prefix: none for a prefix without n-grams; otherwise the first `limit` words that contain all n-grams of the
prefix and have at least as many n-grams as the prefix has before characters outside the alphabet are replaced. -/
def completions (words : List (List Char)) (query : List Char) (limit : Nat) : List (List Char) :=
  if c.grams (c.prefixText query) = [] then []
  else (words.filter fun w => c.matchesPrefix query w &&
    decide ((windows c.n (c.prefixText query)).eraseDups.length ≤ (c.grams (c.wordText w)).length)).take limit

end Verif.Spec.WordConf
