import Verif.Spec.Select
/-!
What it means for an operator or a function to yield a value: stated for all operand expressions, all
documents and all iteration orders.
-/
namespace JP.Spec

/-- `op e` has the value `r` whenever `e` has the value `a`. -/
def Yields1 (env : Env) (op : Op) (a r : V) : Prop :=
  ∀ (oracle : Oracle) (root dot : V) (e : Expr) (t t1 : Nat),
    evalExpr env oracle root dot e t = .ok (a, t1) → evalExpr env oracle root dot (.inner op [e]) t = .ok (r, t1)

/-- `e1 op e2` has the value `r` whenever `e1` has the value `a` and `e2` has the value `b`. -/
def Yields2 (env : Env) (op : Op) (a b r : V) : Prop :=
  ∀ (oracle : Oracle) (root dot : V) (e1 e2 : Expr) (t t1 t2 : Nat),
    evalExpr env oracle root dot e1 t = .ok (a, t1) → evalExpr env oracle root dot e2 t1 = .ok (b, t2) →
    evalExpr env oracle root dot (.inner op [e1, e2]) t = .ok (r, t2)

/-- Evaluating `e1 op e2` is an error whenever `e1` has the value `a` and `e2` has the value `b`. -/
def Raises2 (env : Env) (op : Op) (a b : V) (x : RErr) : Prop :=
  ∀ (oracle : Oracle) (root dot : V) (e1 e2 : Expr) (t t1 t2 : Nat),
    evalExpr env oracle root dot e1 t = .ok (a, t1) → evalExpr env oracle root dot e2 t1 = .ok (b, t2) →
    evalExpr env oracle root dot (.inner op [e1, e2]) t = .err x

/-- The values of a list of expressions, evaluated in turn. -/
inductive Values (env : Env) (oracle : Oracle) (root dot : V) : List Expr → List V → Nat → Nat → Prop
  | nil (t : Nat) : Values env oracle root dot [] [] t t
  | cons {e : Expr} {es : List Expr} {v : V} {vs : List V} {t t1 t2 : Nat} :
      evalExpr env oracle root dot e t = .ok (v, t1) → Values env oracle root dot es vs t1 t2 →
      Values env oracle root dot (e :: es) (v :: vs) t t2

/-- `f(e1, ..., en)` has the value `r` whenever the arguments have the values `args`. -/
def YieldsCall (env : Env) (f : Bytes) (args : List V) (r : V) : Prop :=
  ∀ (oracle : Oracle) (root dot : V) (es : List Expr) (t t1 : Nat), Values env oracle root dot es args t t1 →
    ∃ t2, evalExpr env oracle root dot (.inner .call (.name f :: es)) t = .ok (r, t2)

/-- Evaluating `f(e1, ..., en)` is an error whenever the arguments have the values `args`. -/
def RaisesCall (env : Env) (f : Bytes) (args : List V) (x : RErr) : Prop :=
  ∀ (oracle : Oracle) (root dot : V) (es : List Expr) (t t1 : Nat), Values env oracle root dot es args t t1 →
    evalExpr env oracle root dot (.inner .call (.name f :: es)) t = .err x

/-- A failed evaluation. -/
def Failed : V → Prop
  | .err _ => True
  | _ => False

end JP.Spec
