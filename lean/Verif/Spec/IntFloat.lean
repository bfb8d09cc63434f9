import Verif.Spec.Presence
import Verif.Spec.Float
/-!
Documents that differ only in how their integers are held: as integers or as floats.  A decoder of JSON may give either
for `3`, and encoding/json gives floats.
-/
namespace JP.Spec

/-- The integer `n`, of either type of integers or as a float. -/
inductive IsWhole (n : Int) : V → Prop
  | int (k : Int64) : k.toInt = n → IsWhole n (.int k)
  | gint (k : Int64) : k.toInt = n → IsWhole n (.gint k)
  | float (x : F64) : x.Finite → x.val = n → IsWhole n (.float x)

/-- Equal, or the same integer of at most 53 bits, held in any of those ways. -/
def SameWhole (a b : V) : Prop := a = b ∨ ∃ n : Int, |n| < 2 ^ 53 ∧ IsWhole n a ∧ IsWhole n b

/-- Literals: numbers, booleans, null, and strings that strconv.ParseFloat does not take for numbers. -/
inductive PlainLiteral (env : Env) : Expr → Prop
  | int (n) : PlainLiteral env (.int n)
  | float (x) : PlainLiteral env (.float x)
  | bool (b) : PlainLiteral env (.bool b)
  | null : PlainLiteral env .null
  | str (s) : s = [] ∨ env.parseFloat s = none → PlainLiteral env (.str s)

/-- `<`, `<=`, `>=` and `>`. -/
def IsRelation (op : Op) : Prop := op = .lt ∨ op = .le ∨ op = .ge ∨ op = .gt

/-- `==` and `!=`. -/
def IsEquality (op : Op) : Prop := op = .eq ∨ op = .ne

/-- Expressions that go to values, as those of `Presence`, and compare them: by order with each other, and for equality with
literals. -/
inductive Compares (env : Env) : Expr → Prop
  | current : Compares env .current
  | root : Compares env .root
  | constant (e) : Constant e = true → Compares env e
  | dot (a s) : Compares env a → Compares env (.inner .dot [a, .name s])
  | index (a k) : Compares env a → Constant k = true → Compares env (.inner .index [a, k])
  | not (a) : Compares env a → Compares env (.inner .not [a])
  | and (a b) : Compares env a → Compares env b → Compares env (.inner .and [a, b])
  | or (a b) : Compares env a → Compares env b → Compares env (.inner .or [a, b])
  | order (op a b) : IsRelation op → Compares env a → Compares env b → Compares env (.inner op [a, b])
  | equal (op a k) : IsEquality op → Compares env a → PlainLiteral env k → Compares env (.inner op [a, k])
  | equal' (op k a) : IsEquality op → PlainLiteral env k → Compares env a → Compares env (.inner op [k, a])
  | among (op a ks) : op = .in_ ∨ op = .nin → Compares env a → (∀ k ∈ ks, PlainLiteral env k) → Compares env (.inner op [a, .inner .array ks])

/-- The filters of the path are of this kind, and other expressions in it refer to no value. -/
def OnlyCompares (env : Env) (q : Path) : Prop :=
  ∀ s ∈ q, ∀ e, Val.expr e ∈ s.args → (IsFilter s → Compares env e) ∧ (¬ IsFilter s → Constant e = true)

end JP.Spec
