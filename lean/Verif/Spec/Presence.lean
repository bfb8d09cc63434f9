import Verif.Spec.Shape
import Verif.Spec.Select
/-!
Filters that only test whether something is there.
-/
namespace JP.Spec

/-- Expressions that go to a value and ask whether it is there and true: `@`, `$`, members, elements at a constant place,
`!`, `&&` and `||`; and what refers to no value. -/
inductive Presence : Expr → Prop
  | current : Presence .current
  | root : Presence .root
  | constant (e) : Constant e = true → Presence e
  | dot (a s) : Presence a → Presence (.inner .dot [a, .name s])
  | index (a k) : Presence a → Constant k = true → Presence (.inner .index [a, k])
  | not (a) : Presence a → Presence (.inner .not [a])
  | and (a b) : Presence a → Presence b → Presence (.inner .and [a, b])
  | or (a b) : Presence a → Presence b → Presence (.inner .or [a, b])

/-- A filter. -/
def IsFilter (s : Step) : Prop := s.op = .filter ∨ s.op = .nestFilter

/-- The filters of the path are of this kind, and other expressions in it refer to no value. -/
def TestsPresence (q : Path) : Prop := ∀ s ∈ q, ∀ e, Val.expr e ∈ s.args → (IsFilter s → Presence e) ∧ (¬ IsFilter s → Constant e = true)

/-- A number or a boolean. -/
def NumberOrBool : V → Prop
  | .bool _ | .int _ | .gint _ | .float _ | .num _ => True
  | _ => False

/-- A relation of scalars: they are equal, or both numbers or booleans, and both true or both false in the way of JavaScript. -/
structure KeepsTruth (env : Env) (R : V → V → Prop) : Prop where
  refl : ∀ v, Scalar v → R v v
  keeps : ∀ a b, R a b → a = b ∨ (NumberOrBool a ∧ NumberOrBool b ∧ truthy env a = truthy env b)

end JP.Spec
