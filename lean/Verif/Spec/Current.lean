import Verif.Spec.Select
/-!
`@` in the expressions of `[(e)]` and `.(e)`.
-/
namespace JP

mutual
/-- The expression with `null` in the place of every `@`. -/
def Expr.withNull : Expr → Expr
  | .current => .null
  | .inner op kids => .inner op (Exprs.withNull kids)
  | e => e
/-- Of every one of a list. -/
def Exprs.withNull : List Expr → List Expr
  | [] => []
  | e :: r => e.withNull :: Exprs.withNull r
end

namespace Spec

/-- The value of `e` is `key v`, for whatever value `v` that `@` stands for, and under every order of map iteration. -/
def Computes (env : Env) (oracle : Oracle) (root : V) (e : Expr) (key : V → V) : Prop :=
  ∀ v t, ∃ t', evalExpr env oracle root v e t = .ok (key v, t')

/-- What a string or an integer selects as a key; a failure selects nothing. If `neg`, negative integers count from the
end of an array. -/
inductive Picks (neg : Bool) : V → (V → List V) → Prop
  | str (s : Bytes) : Picks neg (.str s) (memberOf s)
  | int (n : Int64) : Picks neg (.int n) (indexOf neg n.toInt)
  | gint (n : Int64) : Picks neg (.gint n) (indexOf neg n.toInt)
  | failed (x : Err) : Picks neg (.err x) (fun _ => [])

end Spec
end JP
