import Verif.Spec.Eval
/-!
Documents that differ only in the Go types of their integers: `int`, which other decoders than encoding/json may
produce, and `int64`, which the evaluator computes with.
-/
namespace JP

mutual
/-- The value with every Go `int` in it replaced by the `int64` of the same value. -/
def V.asInt64 : V → V
  | .gint n => .int n
  | .arr xs => .arr (Vs.asInt64 xs)
  | .obj kvs => .obj (Members.asInt64 kvs)
  | v => v
/-- Each of a list. -/
def Vs.asInt64 : List V → List V
  | [] => []
  | x :: xs => x.asInt64 :: Vs.asInt64 xs
/-- Each member of an object. -/
def Members.asInt64 : List (Bytes × V) → List (Bytes × V)
  | [] => []
  | (k, x) :: kvs => (k, x.asInt64) :: Members.asInt64 kvs
end

mutual
/-- The value contains no Go `int` that is the least one. -/
def V.noLeastInt : V → Bool
  | .gint n => n != Int64.minValue
  | .arr xs => Vs.noLeastInt xs
  | .obj kvs => Members.noLeastInt kvs
  | _ => true
/-- None of a list does. -/
def Vs.noLeastInt : List V → Bool
  | [] => true
  | x :: xs => x.noLeastInt && Vs.noLeastInt xs
/-- No member of an object does. -/
def Members.noLeastInt : List (Bytes × V) → Bool
  | [] => true
  | (_, x) :: kvs => x.noLeastInt && Members.noLeastInt kvs
end

/-- The error with the value that it mentions, if any, so changed. -/
def RErr.asInt64 : RErr → RErr
  | .matchRight v => .matchRight v.asInt64
  | .matchLeft v => .matchLeft v.asInt64
  | .inRight op v => .inRight op v.asInt64
  | e => e

mutual
/-- The expression does not call the function `abs`. -/
def Expr.noAbs : Expr → Bool
  | .inner op kids => Exprs.noAbs kids &&
      match op, kids with
      | .call, .name f :: _ => f != b! "abs"
      | _, _ => true
  | _ => true
/-- None of the expressions does. -/
def Exprs.noAbs : List Expr → Bool
  | [] => true
  | e :: r => e.noAbs && Exprs.noAbs r
end

/-- No expression of the path calls the function `abs`. -/
def Path.NoAbs (p : Path) : Prop := ∀ s ∈ p, ∀ e, Val.expr e ∈ s.args → e.noAbs = true

end JP
