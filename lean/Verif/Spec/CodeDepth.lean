import Verif.Spec.WF
/-!
The height of expression trees.
-/
namespace JP.Spec

mutual
/-- The number of nodes on the longest way from the root of a tree to a leaf. -/
def exprHeight : Expr → Nat
  | .inner _ kids => 1 + exprHeights kids
  | _ => 1
/-- The height of the highest tree of a list. -/
def exprHeights : List Expr → Nat
  | [] => 0
  | e :: r => max (exprHeight e) (exprHeights r)
end

/-- Every expression in a path has at most this height. -/
def Low (n : Nat) (p : Path) : Prop := ∀ s ∈ p, ∀ e, Val.expr e ∈ s.args → exprHeight e ≤ n

/-- The tree of 1+1+ ... +1. -/
def sum : Nat → Expr
  | 0 => .int 1
  | n + 1 => .inner .add [sum n, .int 1]

/-- The text of further terms of a sum. -/
def plusText : Nat → Bytes → Bytes
  | 0, t => t
  | n + 1, t => c! '+' :: c! '1' :: plusText n t

/-- 1+1+ ... +1 with `n` signs. -/
def sumText (n : Nat) : Bytes := c! '1' :: plusText n []

/-- The path `$[?(1+1+...+1)]` with `n` signs. -/
def sumPath (n : Nat) : Bytes := b! "$[?(1" ++ plusText n (b! ")]")

end JP.Spec
