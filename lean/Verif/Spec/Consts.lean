import Verif.Model.Order
/-!
The constants of a path that need a place in the constant table, in the order in which they are written,
and which of them are the same.
-/
namespace JP

/-- The slots of the table that the orders of a program refer to, in the order of the orders. -/
def Program.refs (p : Program) : List UInt32 := p.orders.filterMap Order.index

end JP

namespace JP.Spec

/-- Integers of more than 23 bits are not packed into orders. -/
def bigInt (n : Int64) : List PVal := if -2 ^ 22 ≤ n.toInt ∧ n.toInt < 2 ^ 22 then [] else [.int n]

mutual
/-- The constants of an expression. -/
def constsOf : Expr → List PVal
  | .int n => bigInt n
  | .float f => [.float f]
  | .str s => [.str s]
  | .name s => [.name s]
  | .re s => [.re s]
  | .bool _ | .null | .current | .root => []
  | .inner _ kids => constsOfAll kids
/-- The constants of several expressions. -/
def constsOfAll : List Expr → List PVal
  | [] => []
  | e :: r => constsOf e ++ constsOfAll r
end

/-- The constants of an argument of a step. -/
def constsOfVal : Val → List PVal
  | .name s => [.name s]
  | .int n => bigInt n
  | .str s => [.str s]
  | .slice s => [.slice s]
  | .expr e => constsOf e

/-- The constants of a path. -/
def consts (p : Path) : List PVal := p.flatMap fun s => s.args.flatMap constsOfVal

/-- Equal constants of the same kind.  Slices and regular expressions are left out. -/
inductive Same : PVal → PVal → Prop
  | int (n) : Same (.int n) (.int n)
  | str (s) : Same (.str s) (.str s)
  | name (s) : Same (.name s) (.name s)
  | float (x y : F64) : x.feq y = true → Same (.float x) (.float y)

end JP.Spec
