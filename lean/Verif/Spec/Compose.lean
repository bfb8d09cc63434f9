import Verif.Spec.Select
import Verif.Spec.Eval
/-! Conditions under which steps compose, and under which the order of map iteration does not matter. -/
namespace JP

mutual
/-- The expression does not mention `$`. -/
def Expr.noRoot : Expr → Bool
  | .root => false
  | .inner _ kids => Exprs.noRoot kids
  | _ => true
/-- None of the expressions does. -/
def Exprs.noRoot : List Expr → Bool
  | [] => true
  | e :: r => e.noRoot && Exprs.noRoot r
end

mutual
/-- The expression does not call the function `keys`. -/
def Expr.noKeys : Expr → Bool
  | .inner op kids => Exprs.noKeys kids &&
      match op, kids with
      | .call, .name f :: _ => f != b! "keys"
      | _, _ => true
  | _ => true
/-- None of the expressions does. -/
def Exprs.noKeys : List Expr → Bool
  | [] => true
  | e :: r => e.noKeys && Exprs.noKeys r
end

/-- No expression of the path mentions `$`. -/
def Path.NoRoot (p : Path) : Prop := ∀ s ∈ p, ∀ e, Val.expr e ∈ s.args → e.noRoot = true

/-- No expression of the path calls the function `keys`. -/
def Path.NoKeys (p : Path) : Prop := ∀ s ∈ p, ∀ e, Val.expr e ∈ s.args → e.noKeys = true

/-- One of the step's arguments is a slice. -/
def Step.HasSlice (s : Step) : Prop := ∃ sl, Val.slice sl ∈ s.args

namespace Spec

/-- A value that can be sliced by the step `s`: an array and, if the step descends, one that contains no
objects. -/
def Sliceable (s : Step) (v : V) : Prop :=
  (∃ xs, v = .arr xs) ∧ ((s.op = .nestSelect ∨ s.op = .nestUnion ∨ s.op = .nestMember) → ∀ kvs, ¬ Desc v (.obj kvs))

/-- Every step of the path that has slices meets only values that can be sliced. -/
def SlicesMeetArrays (env : Env) (root : V) (p : Path) : Prop :=
  ∀ q s r, p = q ++ s :: r → s.HasSlice → ∀ oracle : Oracle, oracle.Valid → ∀ vs,
    evalPath env oracle root q = .ok (some vs) → ∀ v ∈ vs, Sliceable s v

/-- The step, applied to null, succeeds and selects nothing. -/
def IgnoresNull (env : Env) (s : Step) : Prop := evalPath env Oracle.id .null [s] = .ok (some [])

end Spec
end JP
