import Verif.Spec.Float
import Verif.Spec.Js
/-!
Numbers as points of one line: what comparisons of integers and floats should tell.
-/
namespace JP.Spec

/-- The number meant: an integer exactly, a finite float by its bit pattern. -/
def Number.exact : Number → ℚ
  | .int n => n
  | .float f => f.val

/-- Integers of at most 53 bits (those that a float can hold one by one), and all floats. -/
def Number.Small : Number → Prop
  | .int n => -2 ^ 53 ≤ n ∧ n ≤ 2 ^ 53
  | .float _ => True

/-- Not an infinity and not NaN. -/
def Number.Bounded : Number → Prop
  | .int _ => True
  | .float f => f.Finite

end JP.Spec
