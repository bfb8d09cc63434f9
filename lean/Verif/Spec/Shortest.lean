import Verif.Spec.Real
/-!
The shortest decimal that denotes a float, as ECMAScript's Number::toString asks for (and Go's `strconv`).
-/
namespace JP.Spec
open F64 (Rounds)

/-- `m * 10^e` with the sign of `x`. -/
def signedDec (x : F64) (m : Nat) (e : ℤ) : ℚ := if x.neg? then -(m * 10 ^ e) else m * 10 ^ e

/-- `m * 10^e` is the shortest decimal that rounds to the magnitude of `x`, the nearest to it of those with as
few digits, and has an even last digit if there are two such. -/
structure Shortest (x : F64) (m : Nat) (e : ℤ) : Prop where
  reads : Rounds (signedDec x m e) x
  least : ∀ (m' : Nat) (e' : ℤ) (k : Nat), Rounds (signedDec x m' e') x → m' < 10 ^ k → m < 10 ^ k
  trimmed : m % 10 ≠ 0
  closest : ∀ (m' : Nat) (e' : ℤ), Rounds (signedDec x m' e') x → (∀ k, m < 10 ^ k → m' < 10 ^ k) →
    |signedDec x m e - x.val| ≤ |signedDec x m' e' - x.val|
  even : ∀ m' : Nat, Rounds (signedDec x m' e) x → m' ≠ m →
    |signedDec x m e - x.val| = |signedDec x m' e - x.val| → m % 2 = 0

end JP.Spec
