import Verif.Spec.Errors
/-!
The expressions in a path.
-/
namespace JP.Spec

/-- `e` is an argument of a step of the path, or a bound of a slice in it. -/
inductive InPath (q : Path) (e : Expr) : Prop
  | arg {x : Step} : x ∈ q → Val.expr e ∈ x.args → InPath q e
  | start {x : Step} {s : Slice} : x ∈ q → Val.slice s ∈ x.args → s.start = some (.expr e) → InPath q e
  | stop {x : Step} {s : Slice} : x ∈ q → Val.slice s ∈ x.args → s.stop = some (.expr e) → InPath q e
  | stride {x : Step} {s : Slice} : x ∈ q → Val.slice s ∈ x.args → s.stride = some (.expr e) → InPath q e

end JP.Spec
