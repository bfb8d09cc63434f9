import Verif.Spec.Eval
import Mathlib.Data.List.Forall2
/-!
Documents of the same shape, and paths that depend on nothing else.
-/
namespace JP.Spec

/-- Neither an array nor an object. -/
def Scalar : V → Prop
  | .arr _ | .obj _ => False
  | _ => True

/-- The same arrays and objects, with the same names of members, and scalars at the same places that are related by `R`. -/
inductive SameShape (R : V → V → Prop) : V → V → Prop
  | scalar {a b : V} : Scalar a → Scalar b → R a b → SameShape R a b
  | arr {xs ys : List V} : List.Forall₂ (SameShape R) xs ys → SameShape R (.arr xs) (.arr ys)
  | obj {ms ns : List (Bytes × V)} : ms.map Prod.fst = ns.map Prod.fst → List.Forall₂ (SameShape R) (ms.map Prod.snd) (ns.map Prod.snd) →
      SameShape R (.obj ms) (.obj ns)

mutual
/-- The expression refers to no value: neither `$` nor `@` is in it. -/
def Constant : Expr → Bool
  | .current | .root => false
  | .inner _ kids => Constants kids
  | _ => true
/-- None of the expressions does. -/
def Constants : List Expr → Bool
  | [] => true
  | e :: r => Constant e && Constants r
end

/-- The path has no filters, and the expressions in it refer to no value. -/
def Blind (q : Path) : Prop := ∀ s ∈ q, s.op ≠ .filter ∧ s.op ≠ .nestFilter ∧ ∀ e, Val.expr e ∈ s.args → Constant e = true

mutual
/-- The value with `f` applied to its scalars. -/
def mapScalars (f : V → V) : V → V
  | .arr xs => .arr (mapElements f xs)
  | .obj ms => .obj (mapMembers f ms)
  | v => f v
/-- Each of a list. -/
def mapElements (f : V → V) : List V → List V
  | [] => []
  | x :: xs => mapScalars f x :: mapElements f xs
/-- Each member of an object. -/
def mapMembers (f : V → V) : List (Bytes × V) → List (Bytes × V)
  | [] => []
  | (k, x) :: ms => (k, mapScalars f x) :: mapMembers f ms
end

end JP.Spec
