import Verif.Model.Text
/- Model of pkg/lm/count_trie.go and pkg/lm/ngram_builder.go. A Go map is an association list with distinct keys; its
iteration order is a parameter of `walk`. -/
namespace Verif

/-- `type node struct { children childrenTable; count WordCount }` — pkg/lm/count_trie.go:44-50. A nil map and an empty map
are the same here (the code treats them alike). -/
inductive CTNode where
  | mk (count : Nat) (children : List (Nat × CTNode))

namespace CTNode

def count : CTNode → Nat
  | mk c _ => c

def children : CTNode → List (Nat × CTNode)
  | mk _ cs => cs

/-- `&node{children: nil, count: 0}` — pkg/lm/count_trie.go:69-72. -/
def fresh : CTNode := mk 0 []

/-- `n.children[w]` — pkg/lm/count_trie.go:62. -/
def child (cs : List (Nat × CTNode)) (w : Nat) : Option CTNode := cs.lookup w

/-- `n.children[w] = child` — pkg/lm/count_trie.go:74. (In the code the node is stored when it is created and changed
through the pointer later; here the new node is stored when it is complete.) -/
def setChild (w : Nat) (c : CTNode) : List (Nat × CTNode) → List (Nat × CTNode)
  | [] => [(w, c)]
  | (v, d) :: rest => if v = w then (w, c) :: rest else (v, d) :: setChild w c rest

end CTNode

/-- The token table: `table map[Token]uint32` and `holder []Token` — pkg/lm/count_trie.go:39-40. -/
structure TokenTable where
  table : List (Bytes × Nat)
  holder : List Bytes

/-- `mapToUint32` — pkg/lm/count_trie.go:102-112. -/
def TokenTable.mapTo (t : TokenTable) (token : Bytes) : TokenTable × Nat :=
  match t.table.lookup token with
  | some index => (t, index)
  | none =>
    let index := u32 t.holder.length
    (⟨(token, index) :: t.table, t.holder ++ [token]⟩, index)

/-- `mapFromUint32` — pkg/lm/count_trie.go:115-121. -/
def TokenTable.mapFrom (t : TokenTable) (index : Nat) : Except Err Bytes :=
  if u32 t.holder.length ≤ index then .error (.other "index is not exists")
  else
    match t.holder[index]? with
    | some token => .ok token
    | none => .error .panicIndex

/-- `type countTrie struct` — pkg/lm/count_trie.go:36-41. -/
structure CountTrie where
  root : CTNode
  depth : Nat
  tokens : TokenTable

/-- `NewCountTrie` — pkg/lm/count_trie.go:23-33. -/
def newCountTrie : CountTrie := ⟨.fresh, 0, ⟨[], []⟩⟩

/-- The loop of `Put` with the final `n.count += count` (uint32) — pkg/lm/count_trie.go:58-80. -/
def putPath (count : Nat) : TokenTable → CTNode → List Bytes → TokenTable × CTNode
  | t, n, [] => (t, .mk (u32 (n.count + count)) n.children)
  | t, n, word :: rest =>
    let (t', w) := t.mapTo word
    let (t'', c) := putPath count t' ((CTNode.child n.children w).getD .fresh) rest
    (t'', .mk n.count (CTNode.setChild w c n.children))

/-- `Put` — pkg/lm/count_trie.go:53-81. -/
def CountTrie.put (t : CountTrie) (sentence : List Bytes) (count : Nat) : CountTrie :=
  let depth := if sentence.length > t.depth then sentence.length else t.depth
  let (tokens, root) := putPath count t.tokens t.root sentence
  ⟨root, depth, tokens⟩

/-- `for _, x := range l` with a body that may fail. -/
def foldE {σ α : Type} (f : σ → α → Except Err σ) : σ → List α → Except Err σ
  | s, [] => .ok s
  | s, x :: l =>
    match f s x with
    | .error e => .error e
    | .ok s' => foldE f s' l

/-- `iterate` — pkg/lm/count_trie.go:124-145. `room` is `len(path) - depth`, so that `path[depth] = token` panics when it
is 0; `path` is the part `path[:depth]` that has been written. `ord` gives the iteration order of the map at each path.
The callback is a state transformer that may fail; a failure is passed on by panic/recover. -/
def iterateNode {σ : Type} (t : TokenTable) (ord : List Bytes → List (Nat × CTNode) → List (Nat × CTNode))
    (walker : σ → List Bytes → Nat → Except Err σ) : Nat → CTNode → List Bytes → σ → Except Err σ
  | 0, n, path, s =>
    match (if n.count > 0 then walker s path n.count else .ok s) with
    | .error e => .error e
    | .ok s' =>
      match ord path n.children with
      | [] => .ok s'
      | (w, _) :: _ =>
        match t.mapFrom w with
        | .error e => .error e
        | .ok _ => .error .panicIndex
  | room + 1, n, path, s =>
    match (if n.count > 0 then walker s path n.count else .ok s) with
    | .error e => .error e
    | .ok s' =>
      foldE (fun s'' wc =>
        match t.mapFrom wc.1 with
        | .error e => .error e
        | .ok token => iterateNode t ord walker room wc.2 (path ++ [token]) s'') s' (ord path n.children)

/-- `Walk` — pkg/lm/count_trie.go:84-99. -/
def CountTrie.walk {σ : Type} (t : CountTrie) (ord : List Bytes → List (Nat × CTNode) → List (Nat × CTNode))
    (walker : σ → List Bytes → Nat → Except Err σ) (s : σ) : Except Err σ :=
  if t.depth = 0 then .ok s else iterateNode t.tokens ord walker t.depth t.root [] s

/-- The callback that records its calls. -/
def record (calls : List (List Bytes × Nat)) (path : List Bytes) (count : Nat) :
    Except Err (List (List Bytes × Nat)) := .ok (calls ++ [(path, count)])

/-! ### NGramBuilder — pkg/lm/ngram_builder.go -/

/-- The windows `sentence[i:i+k]` for `i = 0 … len(sentence)-k` — pkg/lm/ngram_builder.go:30-32 (none if `k` exceeds the
length). -/
def nGramsOf (sentence : List Bytes) (k : Nat) : List (List Bytes) :=
  (List.range (sentence.length + 1 - k)).map fun i => (sentence.drop i).take k

/-- The body of `case sentence := <-ch` — pkg/lm/ngram_builder.go:26-33. -/
def buildSentence (start fin : Bytes) (order : Nat) (t : CountTrie) (sentence : List Bytes) : CountTrie :=
  let wrapped := start :: sentence ++ [fin]
  (List.range order).foldl (fun t k => (nGramsOf wrapped (k + 1)).foldl (fun t g => t.put g 1) t) t

/-- Where the producing goroutine is — pkg/lm/ngram_builder.go:46-60. -/
inductive Producer where
  | loop                             -- about to call Retrieve
  | sending (s : List Bytes)         -- blocked in `ch <- sentence`
  | quitting                         -- blocked in `quit <- true`
  | done

/-- The state of `Build`: what the retriever will still return (`none` is nil, then Retrieve returns nil for ever), the
producer, the trie of the consumer, and whether Build has returned. -/
structure BuildState where
  source : List (List Bytes)
  producer : Producer
  trie : CountTrie
  returned : Bool

/-- The steps of the two goroutines; channel operations are rendezvous (the channels are unbuffered) —
pkg/lm/ngram_builder.go:19-64. -/
inductive BuildStep (start fin : Bytes) (order : Nat) : BuildState → BuildState → Prop
  | retrieveNil {t r} : BuildStep start fin order ⟨[], .loop, t, r⟩ ⟨[], .quitting, t, r⟩
  | retrieveEmpty {src t r} : BuildStep start fin order ⟨[] :: src, .loop, t, r⟩ ⟨src, .loop, t, r⟩
  | retrieve {s src t r} : s ≠ [] → BuildStep start fin order ⟨s :: src, .loop, t, r⟩ ⟨src, .sending s, t, r⟩
  | receive {s src t} :
      BuildStep start fin order ⟨src, .sending s, t, false⟩ ⟨src, .loop, buildSentence start fin order t s, false⟩
  | quit {src t} : BuildStep start fin order ⟨src, .quitting, t, false⟩ ⟨src, .done, t, true⟩

/-- The start of `Build` on a source. -/
def buildInit (source : List (List Bytes)) : BuildState := ⟨source, .loop, newCountTrie, false⟩

/-- Reachable states of `Build` on a source. -/
inductive BuildReachable (start fin : Bytes) (order : Nat) (source : List (List Bytes)) : BuildState → Prop
  | init : BuildReachable start fin order source (buildInit source)
  | step {s s'} : BuildReachable start fin order source s → BuildStep start fin order s s' →
      BuildReachable start fin order source s'

end Verif
