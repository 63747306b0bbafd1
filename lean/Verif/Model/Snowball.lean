/-
Model of the run-time library of the Snowball compiler (github.com/snowballstem/snowball/go), which is not part of /repo: the
operations the generated stemmers pkg/analysis/en/algorithm.go and pkg/analysis/ru/algorithm.go call. They are taken by the
contract of the Snowball language.

Simplifications: the library works on bytes with offsets that stay on character boundaries; the model counts characters, so
it is about words of valid UTF-8. The library treats U+FFFD (its mark of a decoding error) as neither inside nor outside of a
grouping; the model does not (words with U+FFFD are outside of the model). `FindAmong` is a binary search with links; the model
has its result, the longest string of the table at the cursor; `amongOk` is what the search needs of a table.
-/
namespace Verif.Snowball

/-- `Env` of the library. -/
structure Env where
  current : List Char
  cursor : Nat
  limit : Nat
  limitBackward : Nat
  bra : Nat
  ket : Nat
deriving DecidableEq

/-- `NewEnv`. -/
def newEnv (w : List Char) : Env := ⟨w, 0, w.length, 0, 0, w.length⟩

/-- `SetCurrent`: all fields are set. -/
def Env.setCurrent (_ : Env) (w : List Char) : Env := newEnv w

/-- An entry of a table: the string, the index of the next shorter entry with the same end (or start), the result. -/
structure Among where
  str : List Char
  a : Int
  b : Int
deriving DecidableEq

/-- `env.Bra = env.Cursor`. -/
def Env.setBra (e : Env) : Env := { e with bra := e.cursor }

/-- `env.Ket = env.Cursor`. -/
def Env.setKet (e : Env) : Env := { e with ket := e.cursor }

/-- `env.Cursor = c`. -/
def Env.goTo (e : Env) (c : Nat) : Env := { e with cursor := c }

/-- `ReplaceS` (and `Insert`): the text between `bra` and `ket` becomes `s`; the limit moves, and the cursor if it is not before. -/
def Env.replace (e : Env) (bra ket : Nat) (s : List Char) : Env :=
  { e with
    current := e.current.take bra ++ s ++ e.current.drop (max bra ket)
    limit := e.limit + s.length + bra - ket
    cursor := if ket ≤ e.cursor then e.cursor + s.length + bra - ket else if bra < e.cursor then bra else e.cursor }

/-- `SliceFrom` (its result is always true). -/
def Env.sliceFrom (e : Env) (s : List Char) : Env := e.replace e.bra e.ket s

/-- `SliceDel` (its result is always true). -/
def Env.sliceDel (e : Env) : Env := e.sliceFrom []

/-- `EqS`: does the text continue with `s`? Then behind it. -/
def Env.eqS (e : Env) (s : List Char) : Bool × Env :=
  if e.cursor ≥ e.limit then (false, e)
  else if s.isPrefixOf (e.current.drop e.cursor) then (true, e.goTo (e.cursor + s.length)) else (false, e)

/-- `EqSB`: does the text before the cursor (from `LimitBackward` on) end with `s`? Then before it. -/
def Env.eqSB (e : Env) (s : List Char) : Bool × Env :=
  if e.cursor < e.limitBackward + s.length then (false, e)
  else if s.isPrefixOf (e.current.drop (e.cursor - s.length)) then (true, e.goTo (e.cursor - s.length)) else (false, e)

/-- `NextChar`. -/
def Env.nextChar (e : Env) : Env := e.goTo (e.cursor + 1)

/-- `PrevChar`. -/
def Env.prevChar (e : Env) : Env := e.goTo (e.cursor - 1)

/-- Is the bit of the character set in the table of a grouping? -/
def inBits (g : List Nat) (lo hi : Nat) (c : Char) : Bool :=
  decide (lo ≤ c.toNat) && decide (c.toNat ≤ hi) && (g.getD ((c.toNat - lo) / 8) 0).testBit ((c.toNat - lo) % 8)

/-- `InGrouping` and `OutGrouping` (`want` true or false): is the character at the cursor in the grouping? Then behind it. -/
def Env.grouping (want : Bool) (g : List Nat) (lo hi : Nat) (e : Env) : Bool × Env :=
  if e.cursor ≥ e.limit then (false, e)
  else match e.current[e.cursor]? with
    | some c => if inBits g lo hi c == want then (true, e.nextChar) else (false, e)
    | none => (false, e)

/-- `InGroupingB` and `OutGroupingB`: the same with the character before the cursor. -/
def Env.groupingB (want : Bool) (g : List Nat) (lo hi : Nat) (e : Env) : Bool × Env :=
  if e.cursor ≤ e.limitBackward then (false, e)
  else match e.current[e.cursor - 1]? with
    | some c => if inBits g lo hi c == want then (true, e.prevChar) else (false, e)
    | none => (false, e)

/-- The longest of some entries. -/
def longestOf : List Among → Option Among
  | [] => none
  | a :: as =>
    match longestOf as with
    | none => some a
    | some b => if a.str.length < b.str.length then some b else some a

/-- `FindAmong`: the longest string of the table that begins at the cursor; its result (0: none), and the cursor behind it. -/
def Env.findAmong (t : List Among) (e : Env) : Int × Env :=
  match longestOf (t.filter fun a => a.str.isPrefixOf ((e.current.take e.limit).drop e.cursor)) with
  | some a => (a.b, e.goTo (e.cursor + a.str.length))
  | none => (0, e)

/-- `FindAmongB`: the longest string of the table that ends at the cursor (not before `LimitBackward`). -/
def Env.findAmongB (t : List Among) (e : Env) : Int × Env :=
  match longestOf (t.filter fun a => a.str.isSuffixOf ((e.current.take e.cursor).drop e.limitBackward)) with
  | some a => (a.b, e.goTo (e.cursor - a.str.length))
  | none => (0, e)

/-- The bytes of a string in the order the search looks at them (`back`: from the end). -/
def searchKey (back : Bool) (w : List Char) : List Nat :=
  let b := (w.flatMap String.utf8EncodeChar).map UInt8.toNat
  if back then b.reverse else b

/-- What the binary search of the library needs of a table: sorted by bytes (`back`: read from the end), and every entry is
linked to the longest other entry it begins (ends) with. -/
def amongOk (back : Bool) (t : List Among) : Bool :=
  t.zipIdx.all fun (e, i) =>
    (match t[i + 1]? with | some f => decide (searchKey back e.str < searchKey back f.str) | none => true) &&
    (match longestOf (t.filter fun f => (searchKey back f.str).isPrefixOf (searchKey back e.str) && f.str != e.str) with
      | some f => decide (t[e.a.toNat]? = some f) && decide (0 ≤ e.a)
      | none => decide (e.a = -1))

/-- A loop `golab`: go on until the test succeeds; without success at the limit it fails. The changes of a test that fails are
dropped: the code puts the cursor back, and `Bra` is set again before it is used. -/
def goUntil (test : Env → Bool × Env) (e : Env) : Bool × Env :=
  match test e with
  | (true, e') => (true, e')
  | (false, _) => if e.cursor ≥ e.limit then (false, e) else goUntil test e.nextChar
termination_by e.limit - e.cursor
decreasing_by simp [Env.nextChar, Env.goTo]; omega

/-- The same backward. -/
def goUntilB (test : Env → Bool × Env) (e : Env) : Bool × Env :=
  match test e with
  | (true, e') => (true, e')
  | (false, _) => if e.cursor ≤ e.limitBackward then (false, e) else goUntilB test e.prevChar
termination_by e.cursor
decreasing_by simp [Env.prevChar, Env.goTo]; omega

end Verif.Snowball
