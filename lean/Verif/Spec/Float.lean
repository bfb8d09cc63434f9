import Verif.Model.F64
import Mathlib.Algebra.Order.Field.Power
import Mathlib.Algebra.Order.Ring.Rat
import Mathlib.Data.Rat.Floor
/-!
What the floating-point operations should yield: the numbers that bit patterns stand for (IEEE 754,
binary64), and rounding to the nearest of them.
-/
namespace JP.F64

/-- The number with exponent and fraction field `m` (the bits below the sign): `m * 2^-1074` if the exponent
field is 0; otherwise the fraction with its hidden bit, times a power of 2. -/
def magVal (m : Nat) : ℚ :=
  if m < 2 ^ 52 then (m : ℚ) * 2 ^ (-1074 : ℤ)
  else ((2 ^ 52 + m % 2 ^ 52 : Nat) : ℚ) * 2 ^ (((m / 2 ^ 52 : Nat) : ℤ) - 1075)

/-- The number that a float stands for, if it is finite. -/
def val (x : F64) : ℚ := if x.neg? then -magVal x.mag else magVal x.mag

/-- Neither infinite nor NaN: the exponent field is not all ones. -/
def Finite (x : F64) : Prop := x.mag < infMag

/-- From here on a number is too great to be rounded to a finite float: the greatest is
`2^1024 - 2^971`, and this is half way from there to `2^1024`. -/
def limit : ℚ := 2 ^ 1024 - 2 ^ 970

/-- `x` is what `q` rounds to: the nearest float, or the one with an even fraction of two that are equally
near, or an infinity. -/
structure Rounds (q : ℚ) (x : F64) : Prop where
  not_nan : x.isNaN = false
  overflow : x.isInf = true ↔ limit ≤ |q|
  negative : q < 0 → x.neg? = true
  positive : 0 < q → x.neg? = false
  nearest : x.Finite → ∀ y : F64, y.Finite → |x.val - q| ≤ |y.val - q|
  even : x.Finite → ∀ y : F64, y.Finite → y.val ≠ x.val → |x.val - q| = |y.val - q| → x.mag % 2 = 0

/-- `n` is the integral part of the number that `x` stands for: the fraction is dropped, whichever the sign. -/
structure IntegralPart (x : F64) (n : ℤ) : Prop where
  finite : x.Finite
  part : n = if 0 ≤ x.val then ⌊x.val⌋ else ⌈x.val⌉

end JP.F64
