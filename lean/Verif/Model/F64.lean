import Verif.Model.Basic
/-!
IEEE-754 binary64, modelled exactly (Go's `float64`).  A value is its 64-bit pattern; every
arithmetic operation is the exact rational result rounded once, to nearest, ties to even.
The Go code uses the hardware operations; this file is the model of those operations.
-/
namespace JP

/-- A `float64`, as its bit pattern. -/
structure F64 where
  bits : UInt64
  deriving DecidableEq, Repr, Inhabited

namespace F64

/-- Sign bit. -/
def neg? (x : F64) : Bool := 2^63 ≤ x.bits.toNat
/-- The pattern without its sign bit. -/
def mag (x : F64) : Nat := x.bits.toNat % 2^63
/-- Magnitude of +Inf's pattern. -/
def infMag : Nat := 0x7FF * 2^52
/-- `math.IsNaN`. -/
def isNaN (x : F64) : Bool := infMag < x.mag
/-- Is it an infinity? -/
def isInf (x : F64) : Bool := x.mag == infMag
/-- Build from sign and magnitude pattern. -/
def mk' (s : Bool) (m : Nat) : F64 := ⟨UInt64.ofNat (m % 2^63 + if s then 2^63 else 0)⟩
/-- Order key: the sign-magnitude pattern read as an integer. On non-NaN values the numeric order
is the order of the keys (both zeros have key 0). -/
def key (x : F64) : Int := if x.neg? then -(x.mag : Int) else x.mag

/-- Go `x == y`. -/
def feq (x y : F64) : Bool := !x.isNaN && !y.isNaN && x.key == y.key
/-- Go `x < y`. -/
def flt (x y : F64) : Bool := !x.isNaN && !y.isNaN && decide (x.key < y.key)
/-- Go `x <= y`. -/
def fle (x y : F64) : Bool := !x.isNaN && !y.isNaN && decide (x.key ≤ y.key)

/-- Positive zero. -/
def zero : F64 := mk' false 0
/-- One. -/
def one : F64 := mk' false (0x3FF * 2^52)
/-- The quiet NaN returned by `math.NaN()`. -/
def nan : F64 := mk' false (0x7FF8000000000001)
/-- Infinity of a given sign. -/
def inf (s : Bool) : F64 := mk' s infMag

/-- Go unary `-x`: flips the sign bit. -/
def fneg (x : F64) : F64 := mk' (!x.neg?) x.mag

/-- Integer significand of a finite value: the value is `± man * 2^expo`. -/
def man (x : F64) : Nat := if x.mag < 2^52 then x.mag else x.mag % 2^52 + 2^52
/-- Exponent of a finite value. -/
def expo (x : F64) : Int := if x.mag < 2^52 then -1074 else (x.mag / 2^52 : Int) - 1075

/-- `floor(log2(n/d))` for positive `n`, `d`. -/
def ilog2 (n d : Nat) : Int :=
  let l : Int := (n.log2 : Int) - (d.log2 : Int)
  -- n/d lies strictly between 2^(l-1) and 2^(l+1)
  if 0 ≤ l then (if d * 2^l.toNat ≤ n then l else l - 1)
  else (if d ≤ n * 2^(-l).toNat then l else l - 1)

/-- Round the exact value `± n/d` (with `d > 0`) to nearest, ties to even.  Overflow gives infinity. -/
def round (s : Bool) (n d : Nat) : F64 :=
  if n = 0 then mk' s 0 else
  let e : Int := max (-1074) (ilog2 n d - 52)
  let num := if 0 ≤ e then n else n * 2^(-e).toNat
  let den := if 0 ≤ e then d * 2^e.toNat else d
  let q := num / den
  let r := num % den
  let q' := if den < 2 * r ∨ (2 * r = den ∧ q % 2 = 1) then q + 1 else q
  -- (e+1074)*2^52 + q' is the IEEE encoding, a carry out of the significand included
  let m := (e + 1074).toNat * 2^52 + q'
  if infMag ≤ m then inf s else mk' s m

/-- Signed significand. -/
def sman (x : F64) : Int := if x.neg? then -(x.man : Int) else x.man

/-- Round the exact value `z * 2^e`; a zero result takes sign `zs`. -/
def roundZ (zs : Bool) (z : Int) (e : Int) : F64 :=
  if z = 0 then mk' zs 0
  else if 0 ≤ e then round (decide (z < 0)) (z.natAbs * 2^e.toNat) 1
  else round (decide (z < 0)) z.natAbs (2^(-e).toNat)

/-- Go `x + y`. -/
def fadd (x y : F64) : F64 :=
  if x.isNaN || y.isNaN then nan
  else if x.isInf then (if y.isInf && x.neg? != y.neg? then nan else x)
  else if y.isInf then y
  else
    let e := min x.expo y.expo
    let z := x.sman * 2^(x.expo - e).toNat + y.sman * 2^(y.expo - e).toNat
    roundZ (x.neg? && y.neg?) z e

/-- Go `x - y`. -/
def fsub (x y : F64) : F64 := if y.isNaN then nan else fadd x (fneg y)

/-- Go `x * y`. -/
def fmul (x y : F64) : F64 :=
  let s := x.neg? != y.neg?
  if x.isNaN || y.isNaN then nan
  else if x.isInf || y.isInf then (if x.mag = 0 || y.mag = 0 then nan else inf s)
  else
    let e := x.expo + y.expo
    if 0 ≤ e then round s (x.man * y.man * 2^e.toNat) 1 else round s (x.man * y.man) (2^(-e).toNat)

/-- Go `x / y`. -/
def fdiv (x y : F64) : F64 :=
  let s := x.neg? != y.neg?
  if x.isNaN || y.isNaN then nan
  else if x.isInf then (if y.isInf then nan else inf s)
  else if y.isInf then mk' s 0
  else if y.mag = 0 then (if x.mag = 0 then nan else inf s)
  else
    let e := x.expo - y.expo
    if 0 ≤ e then round s (x.man * 2^e.toNat) y.man else round s x.man (y.man * 2^(-e).toNat)

/-- `math.Mod(x, y)`: exact remainder with the sign of `x`. -/
def fmod (x y : F64) : F64 :=
  if x.isNaN || y.isNaN || x.isInf || y.mag = 0 then nan
  else if y.isInf then x
  else
    let e := min x.expo y.expo
    let a := x.man * 2^(x.expo - e).toNat
    let b := y.man * 2^(y.expo - e).toNat
    let r := a % b
    if 0 ≤ e then round x.neg? (r * 2^e.toNat) 1 else round x.neg? r (2^(-e).toNat)

/-- `float64(n)` for an integer. -/
def ofInt (n : Int) : F64 := round (decide (n < 0)) n.natAbs 1

/-- Integer part of the magnitude of a finite value (truncation). -/
def truncMag (x : F64) : Nat :=
  if 0 ≤ x.expo then x.man * 2^x.expo.toNat else x.man / 2^(-x.expo).toNat

/-- Has a finite value a non-zero fractional part? -/
def hasFrac (x : F64) : Bool :=
  if 0 ≤ x.expo then false else x.man % 2^(-x.expo).toNat != 0

/-- Truncation toward zero of a finite value. -/
def trunc (x : F64) : Int := if x.neg? then -(x.truncMag : Int) else x.truncMag

/-- `math.Floor`. -/
def floor (x : F64) : F64 :=
  if x.isNaN || x.isInf then x
  else round x.neg? (if x.neg? && x.hasFrac then x.truncMag + 1 else x.truncMag) 1

/-- `math.Ceil`. -/
def ceil (x : F64) : F64 :=
  if x.isNaN || x.isInf then x
  else round x.neg? (if !x.neg? && x.hasFrac then x.truncMag + 1 else x.truncMag) 1

end F64
end JP
