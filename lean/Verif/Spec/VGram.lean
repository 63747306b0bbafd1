import Verif.Model.VGram
import Verif.Spec.Text
/- Specification of property C87 (frequency trie). -/
namespace Verif.Spec

/-- The trie after `NewFrequencyTrie(qMin)` and the calls `Add(g)` for the grams, in order. -/
def gramTrie (qMin : Nat) (gs : List (List Char)) : VGram.FTrie :=
  gs.foldl (fun t g => t.add (utf8 g)) (VGram.newFrequencyTrie qMin)

/-- The number of grams that begin with `p`. -/
def begins (gs : List (List Char)) (p : List Char) : Nat := gs.countP fun g => decide (p <+: g)

/-- `p` is the longest beginning of `g` that satisfies `S`. -/
def Longest (S : List Char → Prop) (p g : List Char) : Prop := p <+: g ∧ S p ∧ ∀ q, q <+: g → S q → q.length ≤ p.length

/-- The gram is in the trie: `Find` gives a node. -/
def InTrie (t : VGram.FTrie) (p : List Char) : Prop := ∃ n, t.find (utf8 p) = .pointer (some n)

end Verif.Spec

namespace Verif.Spec
open VGram

/-- The tries a user can have after adding the grams `gs` and then calling `Prune` any number of times, with any thresholds
(uint32). -/
inductive GramHistory (qMin : Nat) (gs : List (List Char)) : FTrie → Prop
  | built : GramHistory qMin gs (gramTrie qMin gs)
  | pruned {t t' T} : GramHistory qMin gs t → t.Prunes T t' → GramHistory qMin gs t'

end Verif.Spec
