import Verif.Model.Snowball
/-
Model of pkg/analysis/ru/algorithm.go, the generated stemmer for Russian, statement by statement: a labelled block `lab: for { … }`
that is left by `break lab` becomes the `if` of its test, a loop `golab` becomes `goUntil`. The results `true` of `SliceFrom` and
`SliceDel` are not tested. The context (`i_p2`, `i_pV`) is passed as numbers.
-/
namespace Verif.Ru
open Snowball

/-- `A_0` — pkg/analysis/ru/algorithm.go:9-19. -/
def A0 : List Among := [
  ⟨['в', 'ш', 'и', 'с', 'ь'], -1, 1⟩,
  ⟨['ы', 'в', 'ш', 'и', 'с', 'ь'], 0, 2⟩,
  ⟨['и', 'в', 'ш', 'и', 'с', 'ь'], 0, 2⟩,
  ⟨['в'], -1, 1⟩,
  ⟨['ы', 'в'], 3, 2⟩,
  ⟨['и', 'в'], 3, 2⟩,
  ⟨['в', 'ш', 'и'], -1, 1⟩,
  ⟨['ы', 'в', 'ш', 'и'], 6, 2⟩,
  ⟨['и', 'в', 'ш', 'и'], 6, 2⟩]

/-- `A_1` — pkg/analysis/ru/algorithm.go:21-48. -/
def A1 : List Among := [
  ⟨['е', 'м', 'у'], -1, 1⟩,
  ⟨['о', 'м', 'у'], -1, 1⟩,
  ⟨['ы', 'х'], -1, 1⟩,
  ⟨['и', 'х'], -1, 1⟩,
  ⟨['у', 'ю'], -1, 1⟩,
  ⟨['ю', 'ю'], -1, 1⟩,
  ⟨['е', 'ю'], -1, 1⟩,
  ⟨['о', 'ю'], -1, 1⟩,
  ⟨['я', 'я'], -1, 1⟩,
  ⟨['а', 'я'], -1, 1⟩,
  ⟨['ы', 'е'], -1, 1⟩,
  ⟨['е', 'е'], -1, 1⟩,
  ⟨['и', 'е'], -1, 1⟩,
  ⟨['о', 'е'], -1, 1⟩,
  ⟨['ы', 'м', 'и'], -1, 1⟩,
  ⟨['и', 'м', 'и'], -1, 1⟩,
  ⟨['ы', 'й'], -1, 1⟩,
  ⟨['е', 'й'], -1, 1⟩,
  ⟨['и', 'й'], -1, 1⟩,
  ⟨['о', 'й'], -1, 1⟩,
  ⟨['ы', 'м'], -1, 1⟩,
  ⟨['е', 'м'], -1, 1⟩,
  ⟨['и', 'м'], -1, 1⟩,
  ⟨['о', 'м'], -1, 1⟩,
  ⟨['е', 'г', 'о'], -1, 1⟩,
  ⟨['о', 'г', 'о'], -1, 1⟩]

/-- `A_2` — pkg/analysis/ru/algorithm.go:50-59. -/
def A2 : List Among := [
  ⟨['в', 'ш'], -1, 1⟩,
  ⟨['ы', 'в', 'ш'], 0, 2⟩,
  ⟨['и', 'в', 'ш'], 0, 2⟩,
  ⟨['щ'], -1, 1⟩,
  ⟨['ю', 'щ'], 3, 1⟩,
  ⟨['у', 'ю', 'щ'], 4, 2⟩,
  ⟨['е', 'м'], -1, 1⟩,
  ⟨['н', 'н'], -1, 1⟩]

/-- `A_3` — pkg/analysis/ru/algorithm.go:61-64. -/
def A3 : List Among := [
  ⟨['с', 'ь'], -1, 1⟩,
  ⟨['с', 'я'], -1, 1⟩]

/-- `A_4` — pkg/analysis/ru/algorithm.go:66-113. -/
def A4 : List Among := [
  ⟨['ы', 'т'], -1, 2⟩,
  ⟨['ю', 'т'], -1, 1⟩,
  ⟨['у', 'ю', 'т'], 1, 2⟩,
  ⟨['я', 'т'], -1, 2⟩,
  ⟨['е', 'т'], -1, 1⟩,
  ⟨['у', 'е', 'т'], 4, 2⟩,
  ⟨['и', 'т'], -1, 2⟩,
  ⟨['н', 'ы'], -1, 1⟩,
  ⟨['е', 'н', 'ы'], 7, 2⟩,
  ⟨['т', 'ь'], -1, 1⟩,
  ⟨['ы', 'т', 'ь'], 9, 2⟩,
  ⟨['и', 'т', 'ь'], 9, 2⟩,
  ⟨['е', 'ш', 'ь'], -1, 1⟩,
  ⟨['и', 'ш', 'ь'], -1, 2⟩,
  ⟨['ю'], -1, 2⟩,
  ⟨['у', 'ю'], 14, 2⟩,
  ⟨['л', 'а'], -1, 1⟩,
  ⟨['ы', 'л', 'а'], 16, 2⟩,
  ⟨['и', 'л', 'а'], 16, 2⟩,
  ⟨['н', 'а'], -1, 1⟩,
  ⟨['е', 'н', 'а'], 19, 2⟩,
  ⟨['е', 'т', 'е'], -1, 1⟩,
  ⟨['и', 'т', 'е'], -1, 2⟩,
  ⟨['й', 'т', 'е'], -1, 1⟩,
  ⟨['у', 'й', 'т', 'е'], 23, 2⟩,
  ⟨['е', 'й', 'т', 'е'], 23, 2⟩,
  ⟨['л', 'и'], -1, 1⟩,
  ⟨['ы', 'л', 'и'], 26, 2⟩,
  ⟨['и', 'л', 'и'], 26, 2⟩,
  ⟨['й'], -1, 1⟩,
  ⟨['у', 'й'], 29, 2⟩,
  ⟨['е', 'й'], 29, 2⟩,
  ⟨['л'], -1, 1⟩,
  ⟨['ы', 'л'], 32, 2⟩,
  ⟨['и', 'л'], 32, 2⟩,
  ⟨['ы', 'м'], -1, 2⟩,
  ⟨['е', 'м'], -1, 1⟩,
  ⟨['и', 'м'], -1, 2⟩,
  ⟨['н'], -1, 1⟩,
  ⟨['е', 'н'], 38, 2⟩,
  ⟨['л', 'о'], -1, 1⟩,
  ⟨['ы', 'л', 'о'], 40, 2⟩,
  ⟨['и', 'л', 'о'], 40, 2⟩,
  ⟨['н', 'о'], -1, 1⟩,
  ⟨['е', 'н', 'о'], 43, 2⟩,
  ⟨['н', 'н', 'о'], 43, 1⟩]

/-- `A_5` — pkg/analysis/ru/algorithm.go:115-152. -/
def A5 : List Among := [
  ⟨['у'], -1, 1⟩,
  ⟨['я', 'х'], -1, 1⟩,
  ⟨['и', 'я', 'х'], 1, 1⟩,
  ⟨['а', 'х'], -1, 1⟩,
  ⟨['ы'], -1, 1⟩,
  ⟨['ь'], -1, 1⟩,
  ⟨['ю'], -1, 1⟩,
  ⟨['ь', 'ю'], 6, 1⟩,
  ⟨['и', 'ю'], 6, 1⟩,
  ⟨['я'], -1, 1⟩,
  ⟨['ь', 'я'], 9, 1⟩,
  ⟨['и', 'я'], 9, 1⟩,
  ⟨['а'], -1, 1⟩,
  ⟨['е', 'в'], -1, 1⟩,
  ⟨['о', 'в'], -1, 1⟩,
  ⟨['е'], -1, 1⟩,
  ⟨['ь', 'е'], 15, 1⟩,
  ⟨['и', 'е'], 15, 1⟩,
  ⟨['и'], -1, 1⟩,
  ⟨['е', 'и'], 18, 1⟩,
  ⟨['и', 'и'], 18, 1⟩,
  ⟨['я', 'м', 'и'], 18, 1⟩,
  ⟨['и', 'я', 'м', 'и'], 21, 1⟩,
  ⟨['а', 'м', 'и'], 18, 1⟩,
  ⟨['й'], -1, 1⟩,
  ⟨['е', 'й'], 24, 1⟩,
  ⟨['и', 'е', 'й'], 25, 1⟩,
  ⟨['и', 'й'], 24, 1⟩,
  ⟨['о', 'й'], 24, 1⟩,
  ⟨['я', 'м'], -1, 1⟩,
  ⟨['и', 'я', 'м'], 29, 1⟩,
  ⟨['а', 'м'], -1, 1⟩,
  ⟨['е', 'м'], -1, 1⟩,
  ⟨['и', 'е', 'м'], 32, 1⟩,
  ⟨['о', 'м'], -1, 1⟩,
  ⟨['о'], -1, 1⟩]

/-- `A_6` — pkg/analysis/ru/algorithm.go:154-157. -/
def A6 : List Among := [
  ⟨['о', 'с', 'т'], -1, 1⟩,
  ⟨['о', 'с', 'т', 'ь'], -1, 1⟩]

/-- `A_7` — pkg/analysis/ru/algorithm.go:159-164. -/
def A7 : List Among := [
  ⟨['е', 'й', 'ш'], -1, 1⟩,
  ⟨['ь'], -1, 3⟩,
  ⟨['е', 'й', 'ш', 'е'], -1, 1⟩,
  ⟨['н'], -1, 2⟩]

/-- `G_v` — pkg/analysis/ru/algorithm.go:166. -/
def Gv : List Nat := [33, 65, 8, 232]

/-- `env.InGrouping(G_v, 1072, 1103)`. -/
def vowel (e : Env) : Bool × Env := e.grouping true Gv 1072 1103

/-- `env.OutGrouping(G_v, 1072, 1103)`. -/
def nonVowel (e : Env) : Bool × Env := e.grouping false Gv 1072 1103

/-- `r_mark_regions`: `i_pV` and `i_p2`; the cursor is put back — pkg/analysis/ru/algorithm.go:173-243. -/
def markRegions (e : Env) : Nat × Nat :=
  match goUntil vowel e with
  | (false, _) => (e.limit, e.limit)
  | (true, e1) =>
    let pV := e1.cursor
    match goUntil nonVowel e1 with
    | (false, _) => (pV, e.limit)
    | (true, e2) =>
      match goUntil vowel e2 with
      | (false, _) => (pV, e.limit)
      | (true, e3) =>
        match goUntil nonVowel e3 with
        | (false, _) => (pV, e.limit)
        | (true, e4) => (pV, e4.cursor)

/-- `r_R2` — pkg/analysis/ru/algorithm.go:245-252. -/
def rR2 (p2 : Nat) (e : Env) : Bool := p2 ≤ e.cursor

/-- The block "а or я before the ending" (lines 266-280, 321-336, 380-394), with the slice deleted if there is one. -/
def deleteAfterA (e : Env) : Bool × Env :=
  let v := e.limit - e.cursor
  match e.eqSB ['а'] with
  | (true, e) => (true, e.sliceDel)
  | (false, e) =>
    let e := e.goTo (e.limit - v)
    match e.eqSB ['я'] with
    | (true, e) => (true, e.sliceDel)
    | (false, e) => (false, e)

/-- `r_perfective_gerund` — pkg/analysis/ru/algorithm.go:254-290. -/
def perfectiveGerund (e : Env) : Bool × Env :=
  let e := e.setKet
  let (among, e) := e.findAmongB A0
  if among = 0 then (false, e)
  else
    let e := e.setBra
    if among = 1 then deleteAfterA e
    else if among = 2 then (true, e.sliceDel)
    else (true, e)

/-- `r_adjective` — pkg/analysis/ru/algorithm.go:292-304. -/
def adjective (e : Env) : Bool × Env :=
  let e := e.setKet
  let (among, e) := e.findAmongB A1
  if among = 0 then (false, e) else (true, e.setBra.sliceDel)

/-- `r_adjectival` — pkg/analysis/ru/algorithm.go:306-352. -/
def adjectival (e : Env) : Bool × Env :=
  match adjective e with
  | (false, e) => (false, e)
  | (true, e) =>
    let v1 := e.limit - e.cursor
    let e := e.setKet
    let (among, e) := e.findAmongB A2
    if among = 0 then (true, e.goTo (e.limit - v1))
    else
      let e := e.setBra
      if among = 1 then
        match deleteAfterA e with
        | (true, e) => (true, e)
        | (false, e) => (true, e.goTo (e.limit - v1))
      else if among = 2 then (true, e.sliceDel)
      else (true, e)

/-- `r_reflexive` — pkg/analysis/ru/algorithm.go:354-366. -/
def reflexive (e : Env) : Bool × Env :=
  let e := e.setKet
  let (among, e) := e.findAmongB A3
  if among = 0 then (false, e) else (true, e.setBra.sliceDel)

/-- `r_verb` — pkg/analysis/ru/algorithm.go:368-404. -/
def verb (e : Env) : Bool × Env :=
  let e := e.setKet
  let (among, e) := e.findAmongB A4
  if among = 0 then (false, e)
  else
    let e := e.setBra
    if among = 1 then deleteAfterA e
    else if among = 2 then (true, e.sliceDel)
    else (true, e)

/-- `r_noun` — pkg/analysis/ru/algorithm.go:406-418. -/
def noun (e : Env) : Bool × Env :=
  let e := e.setKet
  let (among, e) := e.findAmongB A5
  if among = 0 then (false, e) else (true, e.setBra.sliceDel)

/-- `r_derivational` — pkg/analysis/ru/algorithm.go:420-435. -/
def derivational (p2 : Nat) (e : Env) : Bool × Env :=
  let e := e.setKet
  let (among, e) := e.findAmongB A6
  if among = 0 then (false, e)
  else
    let e := e.setBra
    if rR2 p2 e then (true, e.sliceDel) else (false, e)

/-- `r_tidy_up` — pkg/analysis/ru/algorithm.go:437-475. -/
def tidyUp (e : Env) : Bool × Env :=
  let e := e.setKet
  let (among, e) := e.findAmongB A7
  if among = 0 then (false, e)
  else
    let e := e.setBra
    if among = 1 then
      let e := e.sliceDel
      let e := e.setKet
      match e.eqSB ['н'] with
      | (false, e) => (false, e)
      | (true, e) =>
        let e := e.setBra
        match e.eqSB ['н'] with
        | (false, e) => (false, e)
        | (true, e) => (true, e.sliceDel)
    else if among = 2 then
      match e.eqSB ['н'] with
      | (false, e) => (false, e)
      | (true, e) => (true, e.sliceDel)
    else if among = 3 then (true, e.sliceDel)
    else (true, e)

/-- The test of the loop `golab3`: the slice around a `ё` at the cursor, the cursor before it — pkg/analysis/ru/algorithm.go:491-501. -/
def atYo (e : Env) : Bool × Env :=
  let v3 := e.cursor
  let e := e.setBra
  match e.eqS ['ё'] with
  | (false, e) => (false, e)
  | (true, e) => (true, e.setKet.goTo v3)

/-- The loop `replab1`: every `ё` becomes `е`; `none`: not ended after so many rounds — pkg/analysis/ru/algorithm.go:486-518. -/
def replaceYo : Nat → Env → Option Env
  | 0, _ => none
  | n + 1, e =>
    match goUntil atYo e with
    | (false, e') => some (e'.goTo e.cursor)
    | (true, e) => replaceYo n (e.sliceFrom ['е'])

/-- The blocks `lab5`, `lab6`, `lab9`: the first step — pkg/analysis/ru/algorithm.go:530-578. -/
def step1 (e : Env) : Env :=
  let v8 := e.limit - e.cursor
  match perfectiveGerund e with
  | (true, e) => e
  | (false, e) =>
    let e := e.goTo (e.limit - v8)
    let v9 := e.limit - e.cursor
    let e := match reflexive e with
      | (true, e) => e
      | (false, e) => e.goTo (e.limit - v9)
    let v10 := e.limit - e.cursor
    match adjectival e with
    | (true, e) => e
    | (false, e) =>
      let e := e.goTo (e.limit - v10)
      match verb e with
      | (true, e) => e
      | (false, e) =>
        let e := e.goTo (e.limit - v10)
        (noun e).2

/-- The block `lab12`: an `и` at the end is deleted — pkg/analysis/ru/algorithm.go:581-594. -/
def step2 (e : Env) : Env :=
  let v11 := e.limit - e.cursor
  match e.setKet.eqSB ['и'] with
  | (true, e) => e.setBra.sliceDel
  | (false, e) => e.goTo (e.limit - v11)

/-- `Stem` between setting `LimitBackward` to `i_pV` and setting it back — pkg/analysis/ru/algorithm.go:529-600. -/
def inRV (p2 : Nat) (e : Env) : Env :=
  let v7 := e.limit - e.cursor
  let e := step1 e
  let e := e.goTo (e.limit - v7)
  let e := step2 e
  let v12 := e.limit - e.cursor
  let e := (derivational p2 e).2
  let e := e.goTo (e.limit - v12)
  let v13 := e.limit - e.cursor
  let e := (tidyUp e).2
  e.goTo (e.limit - v13)

/-- `Stem` behind the marking of the regions — pkg/analysis/ru/algorithm.go:522-604. -/
def stemEnd (pV p2 : Nat) (e : Env) : Bool × Env :=
  let e := { e with limitBackward := e.cursor }
  let e := e.goTo e.limit
  if e.cursor < pV then (false, e)
  else
    let v6 := e.limitBackward
    let e := { e with limitBackward := pV }
    let e := inRV p2 e
    let e := { e with limitBackward := v6 }
    (true, e.goTo e.limitBackward)

/-- `Stem`; the loop over the `ё` gets `rounds` rounds (`none`: it has not ended) — pkg/analysis/ru/algorithm.go:477-604. -/
def stem (rounds : Nat) (e : Env) : Option (Bool × Env) :=
  let v1 := e.cursor
  match replaceYo rounds e with
  | none => none
  | some e =>
    let e := e.goTo v1
    let (pV, p2) := markRegions e
    some (stemEnd pV p2 e)

end Verif.Ru
