import Verif.Model.Text
/-
Model of pkg/vgram/frequency_trie.go. (The package carries the build tag `ignore`; pkg/vgram/gram_dictionary.go calls
`index.SplitIntoNGrams`, which does not exist in the repository, and is not modelled.)

A Go map is an association list with distinct keys; the order in which it is iterated is arbitrary: `Walks` and `Prunes` are
relations which hold for every order. `sort.Sort` is not stable: any permutation ascending by frequency.
-/
namespace Verif.VGram

/-- `type node struct { children map[rune]*node; marker *marker; frequency uint32 }` with `type marker struct { frequency
uint32 }` — pkg/vgram/frequency_trie.go:97-105. -/
inductive FNode where
  | mk (frequency : Nat) (marker : Option Nat) (children : List (Nat × FNode))

namespace FNode

def frequency : FNode → Nat
  | mk f _ _ => f

/-- `GetMarker` (followed by `GetFrequency` of the marker) — pkg/vgram/frequency_trie.go:107-109,136-142. -/
def marker : FNode → Option Nat
  | mk _ m _ => m

def children : FNode → List (Nat × FNode)
  | mk _ _ cs => cs

/-- `newNode()` — pkg/vgram/frequency_trie.go:111-117. -/
def fresh : FNode := mk 0 none []

/-- `n.children[char]` — pkg/vgram/frequency_trie.go:43,57. -/
def child (cs : List (Nat × FNode)) (c : Nat) : Option FNode := cs.lookup c

/-- `n.children[char] = child` — pkg/vgram/frequency_trie.go:61. (In the code the child is stored when it is created and
changed through the pointer later; here the new child is stored when it is complete.) -/
def setChild (c : Nat) (n : FNode) : List (Nat × FNode) → List (Nat × FNode)
  | [] => [(c, n)]
  | (d, m) :: rest => if d = c then (c, n) :: rest else (d, m) :: setChild c n rest

end FNode

/-- What the loop of `Add` does to the child for the character at byte offset `i`: count it and give it a marker —
pkg/vgram/frequency_trie.go:59-70. -/
def touch (qMin i : Nat) (child : Option FNode) : FNode :=
  let child := child.getD .fresh
  .mk (u32 (child.frequency + 1))
    (if u32 (i + 1) ≥ qMin ∧ child.marker = none then some 0 else child.marker) child.children

/-- `Add`: the loop over the characters of the gram, and the final `cur.marker.frequency++` —
pkg/vgram/frequency_trie.go:53-75. -/
def addPath (qMin : Nat) : FNode → List (Nat × Nat) → FNode
  | n, [] => .mk n.frequency (n.marker.map fun f => u32 (f + 1)) n.children
  | n, (i, char) :: rest =>
    .mk n.frequency n.marker
      (FNode.setChild char (addPath qMin (touch qMin i (FNode.child n.children char)) rest) n.children)

/-- `type trie struct { root *node; qMin uint32 }` — pkg/vgram/frequency_trie.go:27-30. -/
structure FTrie where
  root : FNode
  qMin : Nat

/-- `NewFrequencyTrie` — pkg/vgram/frequency_trie.go:32-37. -/
def newFrequencyTrie (qMin : Nat) : FTrie := ⟨.fresh, qMin⟩

/-- `Add` — pkg/vgram/frequency_trie.go:53-75. -/
def FTrie.add (t : FTrie) (gram : Bytes) : FTrie := ⟨addPath t.qMin t.root (rangeText 0 gram), t.qMin⟩

/-- The loop of `Find` — pkg/vgram/frequency_trie.go:39-51; `none` is the nil pointer. -/
def findPath : FNode → List Nat → Option FNode
  | n, [] => some n
  | n, char :: rest =>
    match FNode.child n.children char with
    | none => none
    | some c => findPath c rest

/-- A value of the interface type `Node`: the nil interface, or an interface holding a pointer of type `*node` (which may be
nil: such a value is not equal to `nil`). -/
inductive NodeValue where
  | nilInterface
  | pointer (p : Option FNode)

/-- `v == nil`. -/
def NodeValue.isNil : NodeValue → Bool
  | nilInterface => true
  | pointer _ => false

/-- `Find`: `cur`, of type `*node`, is returned as a `Node` — pkg/vgram/frequency_trie.go:39-51. -/
def FTrie.find (t : FTrie) (gram : Bytes) : NodeValue := .pointer (findPath t.root (runesOf gram))

/-- `v.GetFrequency()`; a nil pointer is dereferenced, a nil interface has no method — pkg/vgram/frequency_trie.go:132-134.
(`panicIndex` stands for the panic.) -/
def NodeValue.getFrequency : NodeValue → Except Err Nat
  | nilInterface => .error .panicIndex
  | pointer none => .error .panicIndex
  | pointer (some n) => .ok n.frequency

/-- The calls of the walker for the children in the given list, the map of each child being iterated in any order —
pkg/vgram/frequency_trie.go:125-130. -/
inductive WalksList : Bytes → List (Nat × FNode) → List (Bytes × FNode) → Prop
  | nil {key} : WalksList key [] []
  | cons {key char child order a rest b} : order.Perm child.children → WalksList (key ++ encodeRune char) order a →
      WalksList key rest b →
      WalksList key ((char, child) :: rest) ((key ++ encodeRune char, child) :: (a ++ b))

/-- `Walk` calls the walker with these arguments, in this order — pkg/vgram/frequency_trie.go:77-79,125-130. -/
def FTrie.Walks (t : FTrie) (calls : List (Bytes × FNode)) : Prop :=
  ∃ order, order.Perm t.root.children ∧ WalksList [] order calls

mutual

/-- `n.prune(threshold)` turns the node into the second one — pkg/vgram/frequency_trie.go:174-215. -/
inductive PruneNode (threshold : Nat) : FNode → FNode → Prop
  | unmarked {freq cs order rest} : order.Perm cs → PruneAll threshold order rest →
      PruneNode threshold (.mk freq none cs) (.mk freq none rest)
  | small {freq leaf cs} : freq ≤ threshold → PruneNode threshold (.mk freq (some leaf) cs) (.mk freq (some freq) [])
  | large {freq leaf cs order leaf' rest} : ¬ freq ≤ threshold → order.Perm cs →
      order.Pairwise (fun a b => a.2.frequency ≤ b.2.frequency) → PruneLoop threshold leaf order leaf' rest →
      PruneNode threshold (.mk freq (some leaf) cs) (.mk freq (some leaf') rest)

/-- The loop over the children of a node without marker — pkg/vgram/frequency_trie.go:175-181. -/
inductive PruneAll (threshold : Nat) : List (Nat × FNode) → List (Nat × FNode) → Prop
  | nil : PruneAll threshold [] []
  | cons {char child child' cs rest} : PruneNode threshold child child' → PruneAll threshold cs rest →
      PruneAll threshold ((char, child) :: cs) ((char, child') :: rest)

/-- The loop over the sorted children of a node with a marker whose frequency is above the threshold: `leafFreq` before and
behind the loop, the children that remain — pkg/vgram/frequency_trie.go:203-213. (The pointer `child` occurs once in the
map, so `removeChild` removes its entry.) -/
inductive PruneLoop (threshold : Nat) : Nat → List (Nat × FNode) → Nat → List (Nat × FNode) → Prop
  | nil {leaf} : PruneLoop threshold leaf [] leaf []
  | merge {leaf char child cs leaf' rest} : u32 (leaf + child.frequency) ≤ threshold →
      PruneLoop threshold (u32 (leaf + child.frequency)) cs leaf' rest →
      PruneLoop threshold leaf ((char, child) :: cs) leaf' rest
  | keep {leaf char child child' cs leaf' rest} : ¬ u32 (leaf + child.frequency) ≤ threshold →
      PruneNode threshold child child' → PruneLoop threshold leaf cs leaf' rest →
      PruneLoop threshold leaf ((char, child) :: cs) leaf' ((char, child') :: rest)

end

/-- `Prune(threshold)` turns `t` into `t'` — pkg/vgram/frequency_trie.go:81-83. -/
def FTrie.Prunes (t : FTrie) (threshold : Nat) (t' : FTrie) : Prop := PruneNode threshold t.root t'.root ∧ t'.qMin = t.qMin

end Verif.VGram
