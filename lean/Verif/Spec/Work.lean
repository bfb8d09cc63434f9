import Verif.Spec.Ways
/-!
How much work it is to evaluate a path: the number of orders that the machine executes.
-/
namespace JP.Spec

mutual
/-- The number of arrays and objects in a document, the document itself among them. -/
def structs : V → Nat
  | .arr xs => 1 + structss xs
  | .obj kvs => 1 + structsm kvs
  | _ => 0
/-- The number of arrays and objects in the elements of an array. -/
def structss : List V → Nat
  | [] => 0
  | v :: r => structs v + structss r
/-- The number of arrays and objects in the members of an object. -/
def structsm : List (Bytes × V) → Nat
  | [] => 0
  | (_, v) :: r => structs v + structsm r
end

/-- The number of elements or members of a value. -/
def kids : V → Nat
  | .arr xs => xs.length
  | .obj kvs => kvs.length
  | _ => 0

/-- The step looks at values one after the other: a filter, or a step that descends. -/
def Op.looks (op : Op) : Bool := op == .filter || Op.descends op

/-- At how many values a step looks that is given a value: a filter at its elements or members, and a step that
descends at all the arrays and objects in it. -/
def looksAt (s : Step) (v : V) : Nat := if s.op = .filter then kids v else structs v

/-- At how many values a step looks that is given a list of values: at one at least, unless the list is empty. -/
def rounds (s : Step) (vs : List V) : Nat := if vs = [] then 0 else max 1 (vs.map (looksAt s)).sum

/-- The number of orders for a step that is given a list of values.  One for every node of its arguments and one for
the step itself; where it looks at values one after the other, all these and one to go back for each of the values, and
one to begin with. -/
def stepOrders (s : Step) (vs : List V) : Nat :=
  if Op.looks s.op then 1 + rounds s vs * (Vals.size s.args + 2) else Vals.size s.args + 1

/-- The evaluation ends after at most `n` orders. -/
def EndsWithin (env : Env) (oracle : Oracle) (p : JSONPath) (root : V) (n : Nat) : Prop :=
  runFuel env oracle p.prog root (n + 1) (MState.init root) ≠ none

/-- The evaluation ends after exactly `n` orders. -/
def Takes (env : Env) (oracle : Oracle) (p : JSONPath) (root : V) (n : Nat) : Prop :=
  EndsWithin env oracle p root n ∧ runFuel env oracle p.prog root n (MState.init root) = none

end JP.Spec
