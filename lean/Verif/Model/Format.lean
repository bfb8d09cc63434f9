import Verif.Model.Number
/-!
Texts of floating-point numbers, as the standard library's `fmt.Sprint(f)` writes them: the shortest decimal
that reads back as the same number and, of those, the nearest (`strconv.FormatFloat(f, 'g', -1, 64)`).
-/
namespace JP

/-- The magnitude of a finite number as an exact decimal: `(m, e)` for `m * 10^e`. -/
def exactDecimal (x : F64) : Nat × Int :=
  if 0 ≤ x.expo then (x.man * 2 ^ x.expo.toNat, 0) else (x.man * 5 ^ (-x.expo).toNat, x.expo)

/-- Does `m * 10^e`, with the sign of `x`, read back as `x`? -/
def readsBack (x : F64) (m : Nat) (e : Int) : Bool := ofDecimal x.neg? m e == some x

/-- `m * 10^e` without its last `k` digits, rounded down or up, if that reads back as `x`; the nearer one if
both do, and the even one of two that are equally near. -/
def dropDigits (x : F64) (m : Nat) (e : Int) (k : Nat) : Option (Nat × Int) :=
  let lo := m / 10 ^ k
  let r := m % 10 ^ k
  match readsBack x lo (e + k), readsBack x (lo + 1) (e + k) with
  | true, true => some (if 2 * r < 10 ^ k || (2 * r == 10 ^ k && lo % 2 == 0) then lo else lo + 1, e + k)
  | true, false => some (lo, e + k)
  | false, true => some (lo + 1, e + k)
  | false, false => none

/-- Drop as many digits as possible, at most `k`. -/
def dropMost (x : F64) (m : Nat) (e : Int) : Nat → Nat × Int
  | 0 => (m, e)
  | k + 1 => match dropDigits x m e (k + 1) with
    | some r => r
    | none => dropMost x m e k

/-- Remove zeros at the end, at most the given number. -/
def stripZeros : Nat → Nat → Int → Nat × Int
  | 0, m, e => (m, e)
  | n + 1, m, e => if m % 10 == 0 then stripZeros n (m / 10) (e + 1) else (m, e)

/-- The shortest decimal for a finite number other than 0. -/
def shortest (x : F64) : Nat × Int :=
  let (m, e) := exactDecimal x
  let (m, e) := dropMost x m e ((natToBytes m).length - 1)
  stripZeros (natToBytes m).length m e

/-- Format `%e`: one digit, the rest after a point, and an exponent of two digits or more. -/
def formatE (ds : Bytes) (exp : Int) : Bytes :=
  let mant := match ds with
    | d :: c :: r => d :: c! '.' :: c :: r
    | ds => ds
  let digits := natToBytes exp.natAbs
  mant ++ c! 'e' :: (if exp < 0 then c! '-' else c! '+') :: (if digits.length < 2 then c! '0' :: digits else digits)

/-- Format `%f`, with no more digits than needed; `dp` is the place of the point, counted from the first
digit. -/
def formatF (ds : Bytes) (dp : Int) : Bytes :=
  if dp ≤ 0 then c! '0' :: c! '.' :: (List.replicate (-dp).toNat (c! '0') ++ ds)
  else if ds.length ≤ dp then ds ++ List.replicate (dp - ds.length).toNat (c! '0')
  else ds.take dp.toNat ++ c! '.' :: ds.drop dp.toNat

/-- The text of the magnitude of a finite number: an exponent is used if it is less than -4 or greater
than 5. -/
def formatMag (x : F64) : Bytes :=
  if x.mag = 0 then [c! '0']
  else
    let (m, e) := shortest x
    let ds := natToBytes m
    let dp := ds.length + e
    if dp - 1 < -4 || dp - 1 ≥ 6 then formatE ds (dp - 1) else formatF ds dp

/-- `fmt.Sprint(f)`. -/
def fmtFloat (x : F64) : Bytes :=
  if x.isNaN then b! "NaN"
  else if x.isInf then (if x.neg? then b! "-Inf" else b! "+Inf")
  else if x.neg? then c! '-' :: formatMag x else formatMag x

end JP
