import Verif.Spec.Select
/-!
The documented errors of `Eval` and their causes.
-/
namespace JP.Spec

/-- The predefined functions and the number of their arguments; `none` is any number. -/
def functions : List (Bytes × Option Nat) :=
  [(b! "abs", some 1), (b! "avg", some 1), (b! "ceil", some 1), (b! "contains", some 2), (b! "ends_with", some 2), (b! "floor", some 1),
   (b! "keys", some 1), (b! "length", some 1), (b! "max", none), (b! "min", none), (b! "prod", some 1), (b! "starts_with", some 2),
   (b! "sum", some 1), (b! "to_number", some 1), (b! "tokenize", some 2)]

/-- `e'` is a part of `e` (or `e` itself). -/
inductive Part : Expr → Expr → Prop
  | self (e : Expr) : Part e e
  | kid (op : Op) (kids : List Expr) (k e : Expr) : k ∈ kids → Part k e → Part (.inner op kids) e

/-- `e` has the value `v` somewhere in the evaluation of a path on `root`. -/
def CanHave (env : Env) (oracle : Oracle) (root : V) (e : Expr) (v : V) : Prop :=
  ∃ dot t t', evalExpr env oracle root dot e t = .ok (v, t')

/-- The causes of errors: what the expression must be, and the values its operands must have, for the error. -/
inductive Cause (env : Env) (oracle : Oracle) (root : V) : Expr → RErr → Prop
  /-- A string on the right of `=~` that is not a regular expression. -/
  | badRegexp (l r : Expr) (s : Bytes) : CanHave env oracle root r (.str s) → env.reValid s = false →
      Cause env oracle root (.inner .match_ [l, r]) (.badRegexp s)
  /-- A value on the right of `=~` that is neither a string nor a regular expression. -/
  | matchRight (l r : Expr) (v : V) : CanHave env oracle root r v → (∀ s, v ≠ .str s) → (∀ p, v ≠ .re p) → (∀ x, v ≠ .err x) →
      Cause env oracle root (.inner .match_ [l, r]) (.matchRight v)
  /-- A value on the left of `=~` that is not a string. -/
  | matchLeft (l r : Expr) (v : V) : CanHave env oracle root l v → (∀ s, v ≠ .str s) → (∀ x, v ≠ .err x) →
      Cause env oracle root (.inner .match_ [l, r]) (.matchLeft v)
  /-- A value on the right of `in` or `nin` that is not an array. -/
  | inRight (op : Op) (l r : Expr) (v : V) : op = .in_ ∨ op = .nin → CanHave env oracle root r v → (∀ xs, v ≠ .arr xs) → (∀ x, v ≠ .err x) →
      Cause env oracle root (.inner op [l, r]) (.inRight op v)
  /-- A call of a function that is not predefined. -/
  | unknownFunction (f : Bytes) (args : List Expr) : (∀ n, (f, n) ∉ functions) →
      Cause env oracle root (.inner .call (.name f :: args)) (.unknownFunction f)
  /-- A call with the wrong number of arguments. -/
  | wrongArgs (f : Bytes) (n : Nat) (args : List Expr) : (f, some n) ∈ functions → args.length ≠ n →
      Cause env oracle root (.inner .call (.name f :: args)) (.wrongArgs f n args.length)

end JP.Spec
