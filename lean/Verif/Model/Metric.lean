import Mathlib.Analysis.SpecialFunctions.Sqrt
import Mathlib.Algebra.Order.Floor.Ring
import Mathlib.Data.Rat.Floor
/-
Model of pkg/metric and of pkg/suggest/scorer.go.

The float64 operations used by the metrics are collected in `FloatOps S`; every metric is defined once, over an
arbitrary `FloatOps`. Two instances: `realOps` (exact real arithmetic; float64 without rounding) and `f64Ops`
(rational numbers rounded to 53 significant bits, ties to even, after every operation; no overflow, no subnormal
numbers, no NaN). Integer operations do not overflow (cardinalities below 2^31). `nanOps` adds NaN to any of them.
-/
namespace Verif

/-- The float64 operations used by pkg/metric. `ceilInt x` is `int(math.Ceil(x))`, `floorInt x` is
`int(math.Floor(x))`. -/
structure FloatOps (S : Type) where
  ofInt : Int → S
  add : S → S → S
  sub : S → S → S
  mul : S → S → S
  div : S → S → S
  sqrt : S → S
  min : S → S → S
  ceilInt : S → Int
  floorInt : S → Int
  /-- `int(NaN)`: implementation dependent (on amd64 -2^63, on arm64 0) -/
  nanInt : Int

/-- Conversion of an integral float64 to `int`: outside the range of int64 the result is implementation
dependent (`oob`; on amd64 it is -2^63). -/
def toInt64 (oob z : Int) : Int := if -2 ^ 63 ≤ z ∧ z < 2 ^ 63 then z else oob

/-- Exact arithmetic. -/
noncomputable def realOps (oob : Int) : FloatOps ℝ where
  ofInt z := z
  add := (· + ·)
  sub := (· - ·)
  mul := (· * ·)
  div := (· / ·)
  sqrt := Real.sqrt
  min := min
  ceilInt x := toInt64 oob ⌈x⌉
  floorInt x := toInt64 oob ⌊x⌋
  nanInt := oob

/-- Nearest integer, ties to even. -/
def roundEven (x : ℚ) : Int :=
  let f := ⌊x⌋
  let d := x - f
  if d < 1 / 2 then f else if 1 / 2 < d then f + 1 else if f % 2 = 0 then f else f + 1

/-- `2^e` for an integer exponent. -/
def twoPow (e : Int) : ℚ := if 0 ≤ e then (2 ^ e.toNat : Nat) else 1 / ((2 ^ (-e).toNat : Nat) : ℚ)

/-- The exponent of `q ≠ 0`: `2^e ≤ |q| < 2^(e+1)`. -/
def exponent (q : ℚ) : Int :=
  let e := (Nat.log2 q.num.natAbs : Int) - Nat.log2 q.den
  if twoPow e ≤ |q| then e else e - 1

/-- Rounding to 53 significant bits (IEEE 754 binary64, round to nearest, ties to even; unbounded exponent). -/
def rnd53 (q : ℚ) : ℚ :=
  if q = 0 then 0
  else
    let u := twoPow (exponent q - 52)
    (roundEven (q / u) : ℚ) * u

/-- Correctly rounded square root of `q = 0` or `q ≥ 1` (the argument is always a cardinality product): the integer
square root with more than 60 significant bits; an inexact result gets a half in the last place ("sticky bit"), so
that the final rounding goes the right way. -/
def sqrt53 (q : ℚ) : ℚ :=
  if q ≤ 0 then 0
  else
    let k : Nat := 64
    let n := ⌊q * ((4 ^ k : Nat) : ℚ)⌋.toNat
    let r := Nat.sqrt n
    rnd53 ((r + (if (r : ℚ) * r = q * ((4 ^ k : Nat) : ℚ) then 0 else 1 / 2)) / ((2 ^ k : Nat) : ℚ))

/-- float64 arithmetic. -/
def f64Ops (oob : Int) : FloatOps ℚ where
  ofInt z := rnd53 z
  add x y := rnd53 (x + y)
  sub x y := rnd53 (x - y)
  mul x y := rnd53 (x * y)
  div x y := rnd53 (x / y)
  sqrt := sqrt53
  min := min
  ceilInt x := toInt64 oob ⌈x⌉
  floorInt x := toInt64 oob ⌊x⌋
  nanInt := oob

section
variable {S : Type}

/-- A float64 operation with one argument: NaN (`⊤`) gives NaN. -/
def nan1 (f : S → S) : WithTop S → WithTop S
  | (x : S) => (f x : S)
  | ⊤ => ⊤

/-- A float64 operation with two arguments: NaN if one of them is NaN. -/
def nan2 (f : S → S → S) : WithTop S → WithTop S → WithTop S
  | (x : S), (y : S) => (f x y : S)
  | _, _ => ⊤

/-- A conversion to `int`. -/
def nanConv (n : Int) (f : S → Int) : WithTop S → Int
  | (x : S) => f x
  | ⊤ => n

/-- The operations with NaN as an additional number, `⊤`. (Whenever the search compares scores or similarities, a comparison
`x > NaN` is false, as it is here; NaN never stands on the left, as `Distance` does not depend on the similarity.) -/
def nanOps (F : FloatOps S) : FloatOps (WithTop S) where
  ofInt z := (F.ofInt z : S)
  add := nan2 F.add
  sub := nan2 F.sub
  mul := nan2 F.mul
  div := nan2 F.div
  sqrt := nan1 F.sqrt
  min := nan2 F.min
  ceilInt := nanConv F.nanInt F.ceilInt
  floorInt := nanConv F.nanInt F.floorInt
  nanInt := F.nanInt

end

/-- `type Metric interface` — pkg/metric/metric.go:7-16. Arguments as in Go: `minY alpha size`, `maxY alpha size`,
`threshold alpha sizeA sizeB`, `distance inter sizeA sizeB`. -/
structure Metric (S : Type) where
  minY : S → Int → Int
  maxY : S → Int → Int
  threshold : S → Int → Int → Int
  distance : Int → Int → Int → S

section
variable {S : Type} (F : FloatOps S)

/-- pkg/metric/jaccard.go:12-27. -/
def jaccardMetric : Metric S where
  minY alpha size := F.ceilInt (F.mul alpha (F.ofInt size))
  maxY alpha size := F.floorInt (F.div (F.ofInt size) alpha)
  threshold alpha sizeA sizeB :=
    F.ceilInt (F.div (F.mul alpha (F.ofInt (sizeA + sizeB))) (F.add (F.ofInt 1) alpha))
  distance inter sizeA sizeB := F.sub (F.ofInt 1) (F.div (F.ofInt inter) (F.ofInt (sizeA + sizeB - inter)))

/-- pkg/metric/dice.go:12-26; the constant 0.5 is 1/2, which is exact. -/
def diceMetric : Metric S where
  minY alpha size := F.ceilInt (F.mul (F.div alpha (F.sub (F.ofInt 2) alpha)) (F.ofInt size))
  maxY alpha size := F.floorInt (F.mul (F.div (F.sub (F.ofInt 2) alpha) alpha) (F.ofInt size))
  threshold alpha sizeA sizeB :=
    F.ceilInt (F.mul (F.mul (F.div (F.ofInt 1) (F.ofInt 2)) alpha) (F.ofInt (sizeA + sizeB)))
  distance inter sizeA sizeB := F.sub (F.ofInt 1) (F.div (F.ofInt (2 * inter)) (F.ofInt (sizeA + sizeB)))

/-- pkg/metric/cosine.go:12-26. -/
def cosineMetric : Metric S where
  minY alpha size := F.ceilInt (F.mul (F.mul alpha alpha) (F.ofInt size))
  maxY alpha size := F.floorInt (F.div (F.ofInt size) (F.mul alpha alpha))
  threshold alpha sizeA sizeB := F.ceilInt (F.mul alpha (F.sqrt (F.ofInt (sizeA * sizeB))))
  distance inter sizeA sizeB := F.sub (F.ofInt 1) (F.div (F.ofInt inter) (F.sqrt (F.ofInt (sizeA * sizeB))))

/-- pkg/metric/overlap.go:12-26; `math.MaxInt16 = 32767`. -/
def overlapMetric : Metric S where
  minY _ _ := 1
  maxY _ _ := 32767
  threshold alpha sizeA sizeB := F.ceilInt (F.mul alpha (F.min (F.ofInt sizeA) (F.ofInt sizeB)))
  distance inter sizeA sizeB :=
    F.sub (F.ofInt 1) (F.div (F.ofInt inter) (F.min (F.ofInt sizeA) (F.ofInt sizeB)))

/-- pkg/metric/exact.go:10-24. -/
def exactMetric : Metric S where
  minY _ size := size
  maxY _ size := size
  threshold _ sizeA _ := sizeA
  distance _ _ _ := F.ofInt 0

/-- `metricScorer.Score` — pkg/suggest/scorer.go:29-31. -/
def metricScore (m : Metric S) (inter sizeA sizeB : Int) : S := F.sub (F.ofInt 1) (m.distance inter sizeA sizeB)

end
end Verif
