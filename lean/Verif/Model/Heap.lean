/-
Model of the Go standard library package container/heap as used by pkg/merger/merge_skip.go and
pkg/suggest/topk.go. The slice behind the heap is its backing memory `Nat → α` (so that elements
beyond the current length stay visible, both callers rely on that) and the current length is passed
separately. `less a b` is `Less(i, j)` on the elements stored at `i`, `j`.
-/
namespace Verif
namespace Heap
variable {α : Type}

/-- `Swap(i, j)` — pkg/merger/merge_skip.go:23, pkg/suggest/topk.go:41. -/
def swap (m : Nat → α) (i j : Nat) : Nat → α :=
  fun k => if k = i then m j else if k = j then m i else m k

/-- `container/heap.down(h, i, n)`: sift the element at `i` down. (The test `j1 < 0` of the Go code
is for integer overflow.) -/
def down (less : α → α → Bool) (m : Nat → α) (i n : Nat) : Nat → α :=
  if 2 * i + 1 < n then
    let j := if 2 * i + 2 < n ∧ less (m (2 * i + 2)) (m (2 * i + 1)) = true then 2 * i + 2 else 2 * i + 1
    if !less (m j) (m i) then m
    else down less (swap m i j) j n
  else m
termination_by n - i
decreasing_by
  split <;> omega

/-- `container/heap.up(h, j)`: sift the element at `j` up. Go computes the parent as `(j - 1) / 2`
which truncates to `0` for `j = 0`, as here. -/
def up (less : α → α → Bool) (m : Nat → α) (j : Nat) : Nat → α :=
  let i := (j - 1) / 2
  if i = j then m
  else if !less (m j) (m i) then m
  else up less (swap m i j) i
termination_by j
decreasing_by omega

/-- Loop of `heap.Init`: `for i := k - 1; i >= 0; i-- { down(h, i, n) }`. -/
def initLoop (less : α → α → Bool) (n : Nat) : Nat → (Nat → α) → (Nat → α)
  | 0, m => m
  | i + 1, m => initLoop less n i (down less m i n)

/-- `heap.Init` on a heap of length `n`. -/
def init (less : α → α → Bool) (m : Nat → α) (n : Nat) : Nat → α := initLoop less n (n / 2) m

/-- `heap.Pop` on a heap of length `n ≥ 1`; the new length is `n - 1`, the popped element is left in
slot `n - 1`. -/
def pop (less : α → α → Bool) (m : Nat → α) (n : Nat) : Nat → α :=
  down less (swap m 0 (n - 1)) 0 (n - 1)

/-- `heap.Push` after `Push` has stored the element in slot `n` (the old length). -/
def push (less : α → α → Bool) (m : Nat → α) (n : Nat) : Nat → α := up less m n

/-- `heap.Fix(h, 0)`: `down` from the root; if nothing moved, `up` from the root, which does nothing. -/
def fix0 (less : α → α → Bool) (m : Nat → α) (n : Nat) : Nat → α := down less m 0 n

end Heap
end Verif
