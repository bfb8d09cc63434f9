import Verif.Spec.JsOrder
import Verif.Spec.JsText
/-!
JavaScript's arithmetic on simple values (ECMA-262 5.1, 11.5 and 11.6), written down independently of the code.  All
numbers are floats there; what the operations on floats are is C24.
-/
namespace JP.Spec

/-- JavaScript's ToString. -/
inductive SimpleText : Simple → Bytes → Prop
  | undefined : SimpleText .undefined (b! "undefined")
  | null : SimpleText .null (b! "null")
  | bool (b) : SimpleText (.bool b) (if b then b! "true" else b! "false")
  | int (n t) : IntegerText n t → SimpleText (.number (.int n)) t
  | float (f t) : NumberText f t → SimpleText (.number (.float f)) t
  | string (s) : SimpleText (.string s) s

/-- Is it a string? -/
def Simple.isString : Simple → Bool
  | .string _ => true
  | _ => false

/-- The results of the five operators: 11.5.1 to 11.5.3, 11.6.1, 11.6.2. -/
inductive JsArith (env : Env) : Op → Simple → Simple → Simple → Prop
  | concat (x y s t) : (x.isString || y.isString) = true → SimpleText x s → SimpleText y t → JsArith env .add x y (.string (s ++ t))
  | add (x y) : (x.isString || y.isString) = false →
      JsArith env .add x y (.number (.float ((toNumber env x).toF64.fadd (toNumber env y).toF64)))
  | sub (x y) : JsArith env .sub x y (.number (.float ((toNumber env x).toF64.fsub (toNumber env y).toF64)))
  | mul (x y) : JsArith env .mul x y (.number (.float ((toNumber env x).toF64.fmul (toNumber env y).toF64)))
  | div (x y) : JsArith env .div x y (.number (.float ((toNumber env x).toF64.fdiv (toNumber env y).toF64)))
  | mod (x y) : JsArith env .mod x y (.number (.float ((toNumber env x).toF64.fmod (toNumber env y).toF64)))

/-- A value is the one of JavaScript: the same string, the same float, or the integer that the float stands for. -/
inductive Shows : V → Simple → Prop
  | string (s) : Shows (.str s) (.string s)
  | float (f) : Shows (.float f) (.number (.float f))
  | int (n : Int64) (f : F64) : f.Finite → f.val = n.toInt → Shows (.int n) (.number (.float f))

/-- An integer, or a boolean as 0 or 1. -/
def Simple.whole? : Simple → Option Int
  | .bool b => some (if b then 1 else 0)
  | .number (.int n) => some n
  | _ => none

/-- Of at most 53 bits. -/
def Small (n : Int) : Prop := n.natAbs ≤ 2 ^ 53

/-- Two integers of at most 53 bits of which the result has at most 53 bits; quotients must be integers. -/
def FitsInt : Op → Int → Int → Prop
  | .add, m, n => Small m ∧ Small n ∧ Small (m + n)
  | .sub, m, n => Small m ∧ Small n ∧ Small (m - n)
  | .mul, m, n => Small m ∧ Small n ∧ Small (m * n)
  | .div, m, n => Small m ∧ Small n ∧ n ≠ 0 ∧ n ∣ m
  | .mod, m, n => Small m ∧ Small n ∧ n ≠ 0
  | _, _, _ => False

/-- Numbers and booleans, one of them a float; divisors are not zero. -/
def FitsFloat (env : Env) (op : Op) (x y : Simple) : Prop :=
  ((∃ f, x = .number (.float f)) ∧ ((∃ n, y = .number n) ∨ ∃ b, y = .bool b) ∨
    ((∃ n, x = .number n) ∨ ∃ b, x = .bool b) ∧ ∃ f, y = .number (.float f)) ∧
    (op = .div ∨ op = .mod → (toNumber env y).isZero = false)

end JP.Spec
