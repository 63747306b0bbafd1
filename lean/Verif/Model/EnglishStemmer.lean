import Verif.Model.Snowball
/-
Model of pkg/analysis/en/algorithm.go, the generated stemmer for English, statement by statement: a labelled block `lab: for { … }`
that is left by `break lab` becomes the `if` of its test, a loop `golab` becomes `goUntil` or `goUntilB`. The results `true` of
`SliceFrom` and `SliceDel` are not tested. The context (`b_Y_found`, `i_p1`, `i_p2`) is passed as values. The results of the
steps, which `Stem` does not look at, are left out.
-/
namespace Verif.En
open Snowball

/-- `A_0` — pkg/analysis/en/algorithm.go:9-13. -/
def A0 : List Among := [
  ⟨['a', 'r', 's', 'e', 'n'], -1, -1⟩,
  ⟨['c', 'o', 'm', 'm', 'u', 'n'], -1, -1⟩,
  ⟨['g', 'e', 'n', 'e', 'r'], -1, -1⟩]

/-- `A_1` — pkg/analysis/en/algorithm.go:15-19. -/
def A1 : List Among := [
  ⟨['\''], -1, 1⟩,
  ⟨['\'', 's', '\''], 0, 1⟩,
  ⟨['\'', 's'], -1, 1⟩]

/-- `A_2` — pkg/analysis/en/algorithm.go:21-28. -/
def A2 : List Among := [
  ⟨['i', 'e', 'd'], -1, 2⟩,
  ⟨['s'], -1, 3⟩,
  ⟨['i', 'e', 's'], 1, 2⟩,
  ⟨['s', 's', 'e', 's'], 1, 1⟩,
  ⟨['s', 's'], 1, -1⟩,
  ⟨['u', 's'], 1, -1⟩]

/-- `A_3` — pkg/analysis/en/algorithm.go:30-44. -/
def A3 : List Among := [
  ⟨[], -1, 3⟩,
  ⟨['b', 'b'], 0, 2⟩,
  ⟨['d', 'd'], 0, 2⟩,
  ⟨['f', 'f'], 0, 2⟩,
  ⟨['g', 'g'], 0, 2⟩,
  ⟨['b', 'l'], 0, 1⟩,
  ⟨['m', 'm'], 0, 2⟩,
  ⟨['n', 'n'], 0, 2⟩,
  ⟨['p', 'p'], 0, 2⟩,
  ⟨['r', 'r'], 0, 2⟩,
  ⟨['a', 't'], 0, 1⟩,
  ⟨['t', 't'], 0, 2⟩,
  ⟨['i', 'z'], 0, 1⟩]

/-- `A_4` — pkg/analysis/en/algorithm.go:46-53. -/
def A4 : List Among := [
  ⟨['e', 'd'], -1, 2⟩,
  ⟨['e', 'e', 'd'], 0, 1⟩,
  ⟨['i', 'n', 'g'], -1, 2⟩,
  ⟨['e', 'd', 'l', 'y'], -1, 2⟩,
  ⟨['e', 'e', 'd', 'l', 'y'], 3, 1⟩,
  ⟨['i', 'n', 'g', 'l', 'y'], -1, 2⟩]

/-- `A_5` — pkg/analysis/en/algorithm.go:55-80. -/
def A5 : List Among := [
  ⟨['a', 'n', 'c', 'i'], -1, 3⟩,
  ⟨['e', 'n', 'c', 'i'], -1, 2⟩,
  ⟨['o', 'g', 'i'], -1, 13⟩,
  ⟨['l', 'i'], -1, 15⟩,
  ⟨['b', 'l', 'i'], 3, 12⟩,
  ⟨['a', 'b', 'l', 'i'], 4, 4⟩,
  ⟨['a', 'l', 'l', 'i'], 3, 8⟩,
  ⟨['f', 'u', 'l', 'l', 'i'], 3, 9⟩,
  ⟨['l', 'e', 's', 's', 'l', 'i'], 3, 14⟩,
  ⟨['o', 'u', 's', 'l', 'i'], 3, 10⟩,
  ⟨['e', 'n', 't', 'l', 'i'], 3, 5⟩,
  ⟨['a', 'l', 'i', 't', 'i'], -1, 8⟩,
  ⟨['b', 'i', 'l', 'i', 't', 'i'], -1, 12⟩,
  ⟨['i', 'v', 'i', 't', 'i'], -1, 11⟩,
  ⟨['t', 'i', 'o', 'n', 'a', 'l'], -1, 1⟩,
  ⟨['a', 't', 'i', 'o', 'n', 'a', 'l'], 14, 7⟩,
  ⟨['a', 'l', 'i', 's', 'm'], -1, 8⟩,
  ⟨['a', 't', 'i', 'o', 'n'], -1, 7⟩,
  ⟨['i', 'z', 'a', 't', 'i', 'o', 'n'], 17, 6⟩,
  ⟨['i', 'z', 'e', 'r'], -1, 6⟩,
  ⟨['a', 't', 'o', 'r'], -1, 7⟩,
  ⟨['i', 'v', 'e', 'n', 'e', 's', 's'], -1, 11⟩,
  ⟨['f', 'u', 'l', 'n', 'e', 's', 's'], -1, 9⟩,
  ⟨['o', 'u', 's', 'n', 'e', 's', 's'], -1, 10⟩]

/-- `A_6` — pkg/analysis/en/algorithm.go:82-92. -/
def A6 : List Among := [
  ⟨['i', 'c', 'a', 't', 'e'], -1, 4⟩,
  ⟨['a', 't', 'i', 'v', 'e'], -1, 6⟩,
  ⟨['a', 'l', 'i', 'z', 'e'], -1, 3⟩,
  ⟨['i', 'c', 'i', 't', 'i'], -1, 4⟩,
  ⟨['i', 'c', 'a', 'l'], -1, 4⟩,
  ⟨['t', 'i', 'o', 'n', 'a', 'l'], -1, 1⟩,
  ⟨['a', 't', 'i', 'o', 'n', 'a', 'l'], 5, 2⟩,
  ⟨['f', 'u', 'l'], -1, 5⟩,
  ⟨['n', 'e', 's', 's'], -1, 5⟩]

/-- `A_7` — pkg/analysis/en/algorithm.go:94-113. -/
def A7 : List Among := [
  ⟨['i', 'c'], -1, 1⟩,
  ⟨['a', 'n', 'c', 'e'], -1, 1⟩,
  ⟨['e', 'n', 'c', 'e'], -1, 1⟩,
  ⟨['a', 'b', 'l', 'e'], -1, 1⟩,
  ⟨['i', 'b', 'l', 'e'], -1, 1⟩,
  ⟨['a', 't', 'e'], -1, 1⟩,
  ⟨['i', 'v', 'e'], -1, 1⟩,
  ⟨['i', 'z', 'e'], -1, 1⟩,
  ⟨['i', 't', 'i'], -1, 1⟩,
  ⟨['a', 'l'], -1, 1⟩,
  ⟨['i', 's', 'm'], -1, 1⟩,
  ⟨['i', 'o', 'n'], -1, 2⟩,
  ⟨['e', 'r'], -1, 1⟩,
  ⟨['o', 'u', 's'], -1, 1⟩,
  ⟨['a', 'n', 't'], -1, 1⟩,
  ⟨['e', 'n', 't'], -1, 1⟩,
  ⟨['m', 'e', 'n', 't'], 15, 1⟩,
  ⟨['e', 'm', 'e', 'n', 't'], 16, 1⟩]

/-- `A_8` — pkg/analysis/en/algorithm.go:115-118. -/
def A8 : List Among := [
  ⟨['e'], -1, 1⟩,
  ⟨['l'], -1, 2⟩]

/-- `A_9` — pkg/analysis/en/algorithm.go:120-129. -/
def A9 : List Among := [
  ⟨['s', 'u', 'c', 'c', 'e', 'e', 'd'], -1, -1⟩,
  ⟨['p', 'r', 'o', 'c', 'e', 'e', 'd'], -1, -1⟩,
  ⟨['e', 'x', 'c', 'e', 'e', 'd'], -1, -1⟩,
  ⟨['c', 'a', 'n', 'n', 'i', 'n', 'g'], -1, -1⟩,
  ⟨['i', 'n', 'n', 'i', 'n', 'g'], -1, -1⟩,
  ⟨['e', 'a', 'r', 'r', 'i', 'n', 'g'], -1, -1⟩,
  ⟨['h', 'e', 'r', 'r', 'i', 'n', 'g'], -1, -1⟩,
  ⟨['o', 'u', 't', 'i', 'n', 'g'], -1, -1⟩]

/-- `A_10` — pkg/analysis/en/algorithm.go:131-150. -/
def A10 : List Among := [
  ⟨['a', 'n', 'd', 'e', 's'], -1, -1⟩,
  ⟨['a', 't', 'l', 'a', 's'], -1, -1⟩,
  ⟨['b', 'i', 'a', 's'], -1, -1⟩,
  ⟨['c', 'o', 's', 'm', 'o', 's'], -1, -1⟩,
  ⟨['d', 'y', 'i', 'n', 'g'], -1, 3⟩,
  ⟨['e', 'a', 'r', 'l', 'y'], -1, 9⟩,
  ⟨['g', 'e', 'n', 't', 'l', 'y'], -1, 7⟩,
  ⟨['h', 'o', 'w', 'e'], -1, -1⟩,
  ⟨['i', 'd', 'l', 'y'], -1, 6⟩,
  ⟨['l', 'y', 'i', 'n', 'g'], -1, 4⟩,
  ⟨['n', 'e', 'w', 's'], -1, -1⟩,
  ⟨['o', 'n', 'l', 'y'], -1, 10⟩,
  ⟨['s', 'i', 'n', 'g', 'l', 'y'], -1, 11⟩,
  ⟨['s', 'k', 'i', 'e', 's'], -1, 2⟩,
  ⟨['s', 'k', 'i', 's'], -1, 1⟩,
  ⟨['s', 'k', 'y'], -1, -1⟩,
  ⟨['t', 'y', 'i', 'n', 'g'], -1, 5⟩,
  ⟨['u', 'g', 'l', 'y'], -1, 8⟩]

/-- `G_v` — pkg/analysis/en/algorithm.go:152. -/
def Gv : List Nat := [17, 65, 16, 1]

/-- `G_v_WXY` — pkg/analysis/en/algorithm.go:154. -/
def GvWXY : List Nat := [1, 17, 65, 208, 1]

/-- `G_valid_LI` — pkg/analysis/en/algorithm.go:156. -/
def GvalidLI : List Nat := [55, 141, 2]

/-- `env.InGrouping(G_v, 97, 121)`. -/
def vowel (e : Env) : Bool × Env := e.grouping true Gv 97 121

/-- `env.OutGrouping(G_v, 97, 121)`. -/
def nonVowel (e : Env) : Bool × Env := e.grouping false Gv 97 121

/-- `env.InGroupingB(G_v, 97, 121)`. -/
def vowelB (e : Env) : Bool × Env := e.groupingB true Gv 97 121

/-- `env.OutGroupingB(G_v, 97, 121)`. -/
def nonVowelB (e : Env) : Bool × Env := e.groupingB false Gv 97 121

/-- The block `lab0` of `r_prelude`: an apostrophe at the start is deleted — pkg/analysis/en/algorithm.go:168-181. -/
def dropQuote (e : Env) : Env :=
  let v1 := e.cursor
  let e := e.setBra
  match e.eqS ['\''] with
  | (false, e) => e.goTo v1
  | (true, e) => e.setKet.sliceDel.goTo v1

/-- The block `lab1`: a `y` at the start becomes `Y`; has it? — pkg/analysis/en/algorithm.go:182-196. -/
def firstY (e : Env) : Bool × Env :=
  let v2 := e.cursor
  let e := e.setBra
  match e.eqS ['y'] with
  | (false, e) => (false, e.goTo v2)
  | (true, e) => (true, (e.setKet.sliceFrom ['Y']).goTo v2)

/-- The test of the loop `golab5`: a vowel and then `y`; the slice around the `y`, the cursor before the vowel —
pkg/analysis/en/algorithm.go:205-219. -/
def vowelY (e : Env) : Bool × Env :=
  let v5 := e.cursor
  match vowel e with
  | (false, e) => (false, e)
  | (true, e) =>
    let e := e.setBra
    match e.eqS ['y'] with
    | (false, e) => (false, e)
    | (true, e) => (true, e.setKet.goTo v5)

/-- The loop `replab3`: `y` behind a vowel becomes `Y`; `none`: not ended after so many rounds —
pkg/analysis/en/algorithm.go:200-236. -/
def moreY : Nat → Bool → Env → Option (Bool × Env)
  | 0, _, _ => none
  | n + 1, found, e =>
    match goUntil vowelY e with
    | (false, e') => some (found, e'.goTo e.cursor)
    | (true, e) => moreY n true (e.sliceFrom ['Y'])

/-- `r_prelude`: `b_Y_found` and the environment — pkg/analysis/en/algorithm.go:164-240. -/
def prelude (rounds : Nat) (e : Env) : Option (Bool × Env) :=
  let e := dropQuote e
  let (found, e) := firstY e
  let v3 := e.cursor
  match moreY rounds found e with
  | none => none
  | some (found, e) => some (found, e.goTo v3)

/-- The block `lab1` of `r_mark_regions`: behind one of three beginnings or behind the first non-vowel that follows a vowel;
`none`: there is none — pkg/analysis/en/algorithm.go:250-290. -/
def markP1 (e : Env) : Option Env :=
  let v2 := e.cursor
  match e.findAmong A0 with
  | (among, e) =>
    if among ≠ 0 then some e
    else
      let e := e.goTo v2
      match goUntil vowel e with
      | (false, _) => none
      | (true, e) =>
        match goUntil nonVowel e with
        | (false, _) => none
        | (true, e) => some e

/-- `r_mark_regions`: `i_p1`, `i_p2`; the cursor is put back — pkg/analysis/en/algorithm.go:242-325. -/
def markRegions (e : Env) : Nat × Nat :=
  match markP1 e with
  | none => (e.limit, e.limit)
  | some e1 =>
    let p1 := e1.cursor
    match goUntil vowel e1 with
    | (false, _) => (p1, e.limit)
    | (true, e2) =>
      match goUntil nonVowel e2 with
      | (false, _) => (p1, e.limit)
      | (true, e3) => (p1, e3.cursor)

/-- `r_shortv` — pkg/analysis/en/algorithm.go:327-359; its callers put the cursor back. -/
def shortv (e : Env) : Bool :=
  let v1 := e.limit - e.cursor
  let first := match e.groupingB false GvWXY 89 121 with
    | (false, _) => false
    | (true, e) =>
      match vowelB e with
      | (false, _) => false
      | (true, e) => (nonVowelB e).1
  if first then true
  else
    let e := e.goTo (e.limit - v1)
    match nonVowelB e with
    | (false, _) => false
    | (true, e) =>
      match vowelB e with
      | (false, _) => false
      | (true, e) => if e.cursor > e.limitBackward then false else true

/-- `r_R1`, `r_R2` — pkg/analysis/en/algorithm.go:361-377. -/
def inRegion (p : Nat) (e : Env) : Bool := p ≤ e.cursor

/-- The block `lab0` of `r_Step_1a` — pkg/analysis/en/algorithm.go:383-395. -/
def step1aQuote (e : Env) : Env :=
  let v1 := e.limit - e.cursor
  match e.setKet.findAmongB A1 with
  | (among, e) => if among = 0 then e.goTo (e.limit - v1) else e.setBra.sliceDel

/-- The `switch` of `r_Step_1a` — pkg/analysis/en/algorithm.go:379-455. -/
def switch1a (among : Int) (e : Env) : Env :=
  if among = 1 then e.sliceFrom ['s', 's']
  else if among = 2 then
    -- ByteIndexForHop(-2)
    if e.limitBackward + 2 > e.cursor then e.sliceFrom ['i', 'e'] else (e.goTo (e.cursor - 2)).sliceFrom ['i']
  else if among = 3 then
    if e.cursor ≤ e.limitBackward then e
    else
      match goUntilB vowelB e.prevChar with
      | (false, e) => e
      | (true, e) => e.sliceDel
  else e

/-- `r_Step_1a` — pkg/analysis/en/algorithm.go:379-455. -/
def step1a (e : Env) : Env :=
  match (step1aQuote e).setKet.findAmongB A2 with
  | (among, e) => if among = 0 then e else switch1a among e.setBra

/-- `env.Insert(bra, ket, "e")` with `bra` and `ket` at the cursor, the cursor put back — pkg/analysis/en/algorithm.go:497-502, 521-526. -/
def insertE (e : Env) : Env :=
  let c := e.cursor
  (e.replace e.cursor e.cursor ['e']).goTo c

/-- `r_Step_1b` behind the deletion of the ending — pkg/analysis/en/algorithm.go:490-532. -/
def step1bEnd (p1 : Nat) (e : Env) : Env :=
  let v3 := e.limit - e.cursor
  match e.findAmongB A3 with
  | (among, e) =>
    if among = 0 then e
    else
      let e := e.goTo (e.limit - v3)
      if among = 1 then insertE e
      else if among = 2 then
        let e := e.setKet
        if e.cursor ≤ e.limitBackward then e else e.prevChar.setBra.sliceDel
      else if among = 3 then
        if e.cursor ≠ p1 then e
        else if shortv e then insertE e else e
      else e

/-- The `switch` of `r_Step_1b` — pkg/analysis/en/algorithm.go:457-535. -/
def switch1b (p1 : Nat) (among : Int) (e : Env) : Env :=
  if among = 1 then (if inRegion p1 e then e.sliceFrom ['e', 'e'] else e)
  else if among = 2 then
    let v1 := e.limit - e.cursor
    match goUntilB vowelB e with
    | (false, e) => e
    | (true, e) => step1bEnd p1 ((e.goTo (e.limit - v1)).sliceDel)
  else e

/-- `r_Step_1b` — pkg/analysis/en/algorithm.go:457-535. -/
def step1b (p1 : Nat) (e : Env) : Env :=
  match e.setKet.findAmongB A4 with
  | (among, e) => if among = 0 then e else switch1b p1 among e.setBra

/-- The block `lab0` of `r_Step_1c`: a `y` or `Y` before the cursor — pkg/analysis/en/algorithm.go:541-555. -/
def yB (e : Env) : Bool × Env :=
  let v1 := e.limit - e.cursor
  match e.eqSB ['y'] with
  | (true, e) => (true, e)
  | (false, e) => (e.goTo (e.limit - v1)).eqSB ['Y']

/-- `r_Step_1c` — pkg/analysis/en/algorithm.go:537-572. -/
def step1c (e : Env) : Env :=
  match yB e.setKet with
  | (false, e) => e
  | (true, e) =>
    match nonVowelB e.setBra with
    | (false, e) => e
    | (true, e) => if e.cursor > e.limitBackward then e.sliceFrom ['i'] else e

/-- The `switch` of `r_Step_2` — pkg/analysis/en/algorithm.go:574-655. -/
def switch2 (p1 : Nat) (among : Int) (e : Env) : Env :=
  if inRegion p1 e then
    if among = 1 then e.sliceFrom ['t', 'i', 'o', 'n']
    else if among = 2 then e.sliceFrom ['e', 'n', 'c', 'e']
    else if among = 3 then e.sliceFrom ['a', 'n', 'c', 'e']
    else if among = 4 then e.sliceFrom ['a', 'b', 'l', 'e']
    else if among = 5 then e.sliceFrom ['e', 'n', 't']
    else if among = 6 then e.sliceFrom ['i', 'z', 'e']
    else if among = 7 then e.sliceFrom ['a', 't', 'e']
    else if among = 8 then e.sliceFrom ['a', 'l']
    else if among = 9 then e.sliceFrom ['f', 'u', 'l']
    else if among = 10 then e.sliceFrom ['o', 'u', 's']
    else if among = 11 then e.sliceFrom ['i', 'v', 'e']
    else if among = 12 then e.sliceFrom ['b', 'l', 'e']
    else if among = 13 then
      match e.eqSB ['l'] with
      | (false, e) => e
      | (true, e) => e.sliceFrom ['o', 'g']
    else if among = 14 then e.sliceFrom ['l', 'e', 's', 's']
    else if among = 15 then
      match e.groupingB true GvalidLI 99 116 with
      | (false, e) => e
      | (true, e) => e.sliceDel
    else e
  else e

/-- `r_Step_2` — pkg/analysis/en/algorithm.go:574-655. -/
def step2 (p1 : Nat) (e : Env) : Env :=
  match e.setKet.findAmongB A5 with
  | (among, e) => if among = 0 then e else switch2 p1 among e.setBra

/-- The `switch` of `r_Step_3` — pkg/analysis/en/algorithm.go:657-699. -/
def switch3 (p1 p2 : Nat) (among : Int) (e : Env) : Env :=
  if inRegion p1 e then
    if among = 1 then e.sliceFrom ['t', 'i', 'o', 'n']
    else if among = 2 then e.sliceFrom ['a', 't', 'e']
    else if among = 3 then e.sliceFrom ['a', 'l']
    else if among = 4 then e.sliceFrom ['i', 'c']
    else if among = 5 then e.sliceDel
    else if among = 6 then (if inRegion p2 e then e.sliceDel else e)
    else e
  else e

/-- `r_Step_3` — pkg/analysis/en/algorithm.go:657-699. -/
def step3 (p1 p2 : Nat) (e : Env) : Env :=
  match e.setKet.findAmongB A6 with
  | (among, e) => if among = 0 then e else switch3 p1 p2 among e.setBra

/-- The block `lab0` of `r_Step_4`: an `s` or `t` before the cursor — pkg/analysis/en/algorithm.go:719-733. -/
def stB (e : Env) : Bool × Env :=
  let v1 := e.limit - e.cursor
  match e.eqSB ['s'] with
  | (true, e) => (true, e)
  | (false, e) => (e.goTo (e.limit - v1)).eqSB ['t']

/-- The `switch` of `r_Step_4` — pkg/analysis/en/algorithm.go:701-740. -/
def switch4 (p2 : Nat) (among : Int) (e : Env) : Env :=
  if inRegion p2 e then
    if among = 1 then e.sliceDel
    else if among = 2 then
      match stB e with
      | (false, e) => e
      | (true, e) => e.sliceDel
    else e
  else e

/-- `r_Step_4` — pkg/analysis/en/algorithm.go:701-740. -/
def step4 (p2 : Nat) (e : Env) : Env :=
  match e.setKet.findAmongB A7 with
  | (among, e) => if among = 0 then e else switch4 p2 among e.setBra

/-- The `switch` of `r_Step_5` — pkg/analysis/en/algorithm.go:742-793. -/
def switch5 (p1 p2 : Nat) (among : Int) (e : Env) : Env :=
  if among = 1 then
    if inRegion p2 e then e.sliceDel
    else if inRegion p1 e then (if shortv e then e else e.sliceDel)
    else e
  else if among = 2 then
    if inRegion p2 e then
      match e.eqSB ['l'] with
      | (false, e) => e
      | (true, e) => e.sliceDel
    else e
  else e

/-- `r_Step_5` — pkg/analysis/en/algorithm.go:742-793. -/
def step5 (p1 p2 : Nat) (e : Env) : Env :=
  match e.setKet.findAmongB A8 with
  | (among, e) => if among = 0 then e else switch5 p1 p2 among e.setBra

/-- `r_exception2` — pkg/analysis/en/algorithm.go:795-807. -/
def exception2 (e : Env) : Bool × Env :=
  match e.setKet.findAmongB A9 with
  | (among, e) =>
    if among = 0 then (false, e)
    else
      let e := e.setBra
      if e.cursor > e.limitBackward then (false, e) else (true, e)

/-- `r_exception1` — pkg/analysis/en/algorithm.go:809-868. -/
def exception1 (e : Env) : Bool × Env :=
  match e.setBra.findAmong A10 with
  | (among, e) =>
    if among = 0 then (false, e)
    else
      let e := e.setKet
      if e.cursor < e.limit then (false, e)
      else if among = 1 then (true, e.sliceFrom ['s', 'k', 'i'])
      else if among = 2 then (true, e.sliceFrom ['s', 'k', 'y'])
      else if among = 3 then (true, e.sliceFrom ['d', 'i', 'e'])
      else if among = 4 then (true, e.sliceFrom ['l', 'i', 'e'])
      else if among = 5 then (true, e.sliceFrom ['t', 'i', 'e'])
      else if among = 6 then (true, e.sliceFrom ['i', 'd', 'l'])
      else if among = 7 then (true, e.sliceFrom ['g', 'e', 'n', 't', 'l'])
      else if among = 8 then (true, e.sliceFrom ['u', 'g', 'l', 'i'])
      else if among = 9 then (true, e.sliceFrom ['e', 'a', 'r', 'l', 'i'])
      else if among = 10 then (true, e.sliceFrom ['o', 'n', 'l', 'i'])
      else if among = 11 then (true, e.sliceFrom ['s', 'i', 'n', 'g', 'l'])
      else (true, e)

/-- The test of the loop `golab2` of `r_postlude` — pkg/analysis/en/algorithm.go:882-892. -/
def atBigY (e : Env) : Bool × Env :=
  let v2 := e.cursor
  let e := e.setBra
  match e.eqS ['Y'] with
  | (false, e) => (false, e)
  | (true, e) => (true, e.setKet.goTo v2)

/-- The loop of `r_postlude`: every `Y` becomes `y` — pkg/analysis/en/algorithm.go:876-908. -/
def smallY : Nat → Env → Option Env
  | 0, _ => none
  | n + 1, e =>
    match goUntil atBigY e with
    | (false, e') => some (e'.goTo e.cursor)
    | (true, e) => smallY n (e.sliceFrom ['y'])

/-- `r_postlude` — pkg/analysis/en/algorithm.go:870-909. -/
def postlude (rounds : Nat) (found : Bool) (e : Env) : Option Env := if found then smallY rounds e else some e

/-- The steps 1b to 5 (each followed by going back to the end of the text) — pkg/analysis/en/algorithm.go:959-981. -/
def steps (p1 p2 : Nat) (e : Env) : Env :=
  let v7 := e.limit - e.cursor
  let e := step1b p1 e
  let e := e.goTo (e.limit - v7)
  let v8 := e.limit - e.cursor
  let e := step1c e
  let e := e.goTo (e.limit - v8)
  let v9 := e.limit - e.cursor
  let e := step2 p1 e
  let e := e.goTo (e.limit - v9)
  let v10 := e.limit - e.cursor
  let e := step3 p1 p2 e
  let e := e.goTo (e.limit - v10)
  let v11 := e.limit - e.cursor
  let e := step4 p2 e
  let e := e.goTo (e.limit - v11)
  let v12 := e.limit - e.cursor
  let e := step5 p1 p2 e
  e.goTo (e.limit - v12)

/-- The part of `Stem` that works backward — pkg/analysis/en/algorithm.go:944-985. -/
def backward (p1 p2 : Nat) (e : Env) : Env :=
  let e := { e with limitBackward := e.cursor }
  let e := e.goTo e.limit
  let v5 := e.limit - e.cursor
  let e := step1a e
  let e := e.goTo (e.limit - v5)
  let v6 := e.limit - e.cursor
  let e := match exception2 e with
    | (true, e) => e
    | (false, e) => steps p1 p2 (e.goTo (e.limit - v6))
  e.goTo e.limitBackward

/-- `Stem` (its result is always true); the loops over the `y` and `Y` get `rounds` rounds — pkg/analysis/en/algorithm.go:911-992. -/
def stem (rounds : Nat) (e : Env) : Option Env :=
  let v1 := e.cursor
  match exception1 e with
  | (true, e) => some e
  | (false, e) =>
    let e := e.goTo v1
    -- ByteIndexForHop(3)
    if e.cursor + 3 > e.limit then some e
    else
      match prelude rounds (e.goTo v1) with
      | none => none
      | some (found, e) =>
        let (p1, p2) := markRegions e
        let e := backward p1 p2 e
        let v13 := e.cursor
        match postlude rounds found e with
        | none => none
        | some e => some (e.goTo v13)

end Verif.En
