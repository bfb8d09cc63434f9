import Verif.Spec.Lexical
import Verif.Spec.Float
/-!
The texts of decimal numbers and the numbers they denote.
-/
namespace JP.Spec

/-- An exponent, which may be missing, and its value. -/
inductive Exp : Bytes → ℤ → Prop
  | none : Exp [] 0
  | pos (e sign ds) : e = c! 'e' ∨ e = c! 'E' → sign = [] ∨ sign = [c! '+'] → Digits ds → Exp (e :: (sign ++ ds)) (decimal ds)
  | neg (e ds) : e = c! 'e' ∨ e = c! 'E' → Digits ds → Exp (e :: c! '-' :: ds) (-decimal ds)

/-- A number without sign: digits, perhaps a point and more digits, perhaps an exponent (of value `e`), and
the number denoted. -/
inductive Unsigned : Bytes → ℚ → ℤ → Prop
  | whole (ds ex e) : Digits ds → Exp ex e → Unsigned (ds ++ ex) (decimal ds * 10 ^ e) e
  | point (ds fs ex e) : All Digit ds → All Digit fs → ds ++ fs ≠ [] → Exp ex e →
      Unsigned (ds ++ c! '.' :: (fs ++ ex)) (decimal (ds ++ fs) / 10 ^ fs.length * 10 ^ e) e

/-- A number, perhaps with a sign; `neg` tells whether it is a minus sign. -/
inductive DecimalText : (w : Bytes) → (neg : Bool) → (q : ℚ) → (e : ℤ) → Prop
  | unsigned (w q e) : Unsigned w q e → DecimalText w false q e
  | plus (w q e) : Unsigned w q e → DecimalText (c! '+' :: w) false q e
  | minus (w q e) : Unsigned w q e → DecimalText (c! '-' :: w) true (-q) e

/-- A number literal with a fraction, as in an expression, and the number denoted. -/
inductive RealLit : Bytes → ℚ → ℤ → Prop
  | mk (ds fs ex e) : Digits ds → All Digit fs → Exp ex e →
      RealLit (ds ++ c! '.' :: (fs ++ ex)) (decimal (ds ++ fs) / 10 ^ fs.length * 10 ^ e) e

/-- How many digits stand before the exponent. -/
def figures (w : Bytes) : Nat := (w.takeWhile fun c => c != c! 'e' && c != c! 'E').countP fun c => c! '0' ≤ c && c ≤ c! '9'

/-- The exponent, or the number of digits before it, is not absurdly great (strconv does not read exponents of more
than five digits to the end). -/
def Sane (w : Bytes) (e : ℤ) : Prop := e.natAbs < 100000 ∨ figures w ≤ 9676

end JP.Spec
