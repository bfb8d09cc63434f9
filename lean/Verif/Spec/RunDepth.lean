import Verif.Spec.Ways
import Verif.Spec.Stack
/-!
The depth of what an evaluation compares and walks.
-/
namespace JP.Spec

/-- The order may make an array: a list `[…]` in an expression or a call of a function. -/
def builds (o : Order) : Bool :=
  match Op.ofNat? o.opNum with
  | some .array | some .call => true
  | _ => false

/-- The order may call `walkdown` or `eqVal`: a descent, a comparison for equality, `in`, `nin` or a call of a function. -/
def goesDown (o : Order) : Bool :=
  match Op.ofNat? o.opNum with
  | some .nest | some .call | some .eq | some .ne | some .in_ | some .nin => true
  | _ => false

/-- `[[…[]…]]`, with this many arrays around the innermost. -/
def tower : Nat → V
  | 0 => .arr []
  | n + 1 => .arr [tower n]

mutual
/-- The number of arrays and objects, one in the other, at most. -/
def levels : V → Nat
  | .arr xs => levelss xs + 1
  | .obj kvs => levelsm kvs + 1
  | _ => 0
/-- The same for the elements of an array. -/
def levelss : List V → Nat
  | [] => 0
  | v :: r => max (levels v) (levelss r)
/-- The same for the members of an object. -/
def levelsm : List (Bytes × V) → Nat
  | [] => 0
  | (_, v) :: r => max (levels v) (levelsm r)
end

end JP.Spec
