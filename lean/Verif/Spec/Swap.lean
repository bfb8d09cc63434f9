import Verif.Spec.Locate
import Verif.Spec.Eval
/-!
Paths that differ only in having one expression in place of another, at any number of places and depths.
-/
namespace JP.Spec

mutual
/-- The second expression is the first with `b` in place of `a`, somewhere or nowhere. -/
inductive Swap (a b : Expr) : Expr → Expr → Prop
  | here : Swap a b a b
  | same (e) : Swap a b e e
  | inner (op) {ks ks' : List Expr} : SwapAll a b ks ks' → Swap a b (.inner op ks) (.inner op ks')
/-- As `Swap`, one by one. -/
inductive SwapAll (a b : Expr) : List Expr → List Expr → Prop
  | nil : SwapAll a b [] []
  | cons {e e' : Expr} {es es' : List Expr} : Swap a b e e' → SwapAll a b es es' → SwapAll a b (e :: es) (e' :: es')
end

/-- As `Swap`, in an argument of a step. -/
inductive SwapVal (a b : Expr) : Val → Val → Prop
  | same (v) : SwapVal a b v v
  | expr {e e' : Expr} : Swap a b e e' → SwapVal a b (.expr e) (.expr e')

/-- As `Swap`, in a path. -/
def SwapPath (a b : Expr) (q q' : Path) : Prop := All2 (fun s s' => s.op = s'.op ∧ All2 (SwapVal a b) s.args s'.args) q q'

mutual
/-- The expression has neither `@` nor function calls in it. -/
def Expr.fixed : Expr → Bool
  | .current => false
  | .inner op kids => op != .call && Expr.fixeds kids
  | _ => true
/-- None of the expressions has. -/
def Expr.fixeds : List Expr → Bool
  | [] => true
  | e :: r => Expr.fixed e && Expr.fixeds r
end

mutual
/-- The expression has no function calls in it. -/
def Expr.callFree : Expr → Bool
  | .inner op kids => op != .call && Expr.callFrees kids
  | _ => true
/-- None of the expressions has. -/
def Expr.callFrees : List Expr → Bool
  | [] => true
  | e :: r => Expr.callFree e && Expr.callFrees r
end

/-- A literal and its value. -/
inductive Literal : Expr → V → Prop
  | int (n) : Literal (.int n) (.int n)
  | float (f) : Literal (.float f) (.float f)
  | str (s) : Literal (.str s) (.str s)
  | bool (b) : Literal (.bool b) (.bool b)
  | null : Literal .null .null

end JP.Spec
