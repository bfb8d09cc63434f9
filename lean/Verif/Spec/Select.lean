import Verif.Spec.Slice
import Verif.Spec.Text
import Verif.Spec.Eval
/-!
What a step selects from one value, said directly on lists; no accumulators, no nil slices, no oracles.
An order in which a map is iterated over appears as an arbitrary permutation.
-/
namespace JP

/-- `p` is a compiled path, of the tree `q`; its program is not so long that jumps are miscompiled. -/
structure IsCompiled (env : Env) (p : JSONPath) (q : Path) : Prop where
  text : ∃ t, Compile env t = .ok p ∧ parsePath env t = .ok q
  small : p.prog.orders.length < 2 ^ 22

namespace Spec

/-- Two lists related element by element. -/
inductive All2 {α β : Type} (R : α → β → Prop) : List α → List β → Prop
  | nil : All2 R [] []
  | cons {a b as bs} : R a b → All2 R as bs → All2 R (a :: as) (b :: bs)

/-- The members of a given name of an object; nothing for other values. -/
def memberOf (name : Bytes) : V → List V
  | .obj kvs => (kvs.filter fun kv => kv.1 = name).map Prod.snd
  | _ => []

/-- The element of an array at an integer index, counted from the end if negative and `neg` allows it.
In an object, an integer stands for the member named by its decimal digits. -/
def indexOf (neg : Bool) (n : Int) : V → List V
  | .arr xs =>
    let i := if neg = true ∧ n < 0 then xs.length + n else n
    if 0 ≤ i ∧ i < xs.length then xs[i.toNat]?.toList else []
  | .obj kvs => memberOf (intToBytes n) (.obj kvs)
  | _ => []

/-- The integer value of a literal bound. -/
def boundInt : Option Int64 → Option Int
  | none => none
  | some n => some n.toInt

/-- The elements that a slice selects of an array; nothing for other values. -/
def sliced (start stop stride : Option Int64) : V → List V
  | .arr xs => sliceOf xs (boundInt start) (boundInt stop) ((boundInt stride).getD 1)
  | _ => []

/-- A selector as it can be written in brackets. -/
inductive Sel where
  | name (s : Bytes)
  | index (n : Int64)
  | slice (start stop stride : Option Int64)

/-- What a selector selects from a value. -/
def Sel.of : Sel → V → List V
  | .name s => memberOf s
  | .index n => indexOf true n.toInt
  | .slice a b c => sliced a b c

/-- The argument of a step that stands for a selector: a name may be quoted or not. -/
inductive Sel.Is : Val → Sel → Prop
  | name (s) : Sel.Is (.name s) (.name s)
  | str (s) : Sel.Is (.str s) (.name s)
  | int (n) : Sel.Is (.int n) (.index n)
  | slice (a b c : Option Int64) : Sel.Is (.slice ⟨a.map .int, b.map .int, c.map .int⟩) (.slice a b c)

/-- Selecting from this value does not run into the two faults of slices: the value is an array, and
adding the stride to an index does not overflow. -/
def Sel.Fits : Sel → V → Prop
  | .slice _ _ c, v => ∃ xs, v = .arr xs ∧ (xs.length : Int) + (boundInt c).getD 1 ≤ 2 ^ 63
  | _, _ => True

/-- `l` lists the children of a value: the elements of an array in order, the member values of an object
in any order. -/
inductive Children : V → List V → Prop
  | arr (xs) : Children (.arr xs) xs
  | obj (kvs l) : l.Perm (kvs.map Prod.snd) → Children (.obj kvs) l
  | other (v) : isStructure v = false → Children v []

mutual
/-- `l` lists the arrays and objects at and below a value, each occurrence once, parents before
children, elements of arrays in order, members of objects in any order. -/
inductive PreOrder : V → List V → Prop
  | arr (xs l) : PreOrders xs l → PreOrder (.arr xs) (.arr xs :: l)
  | obj (kvs vs l) : vs.Perm (kvs.map Prod.snd) → PreOrders vs l → PreOrder (.obj kvs) (.obj kvs :: l)
  | other (v) : isStructure v = false → PreOrder v []
/-- The same for a list of values, one after the other. -/
inductive PreOrders : List V → List V → Prop
  | nil : PreOrders [] []
  | cons (v vs l l') : PreOrder v l → PreOrders vs l' → PreOrders (v :: vs) (l ++ l')
end

/-- Truthiness, as in JavaScript; a failed evaluation is not truthy. -/
def truthy (env : Env) (v : V) : Bool := !isNothing v && cvb env v

/-- An expression has a value, with `@` bound to `dot`, under some order of map iteration. -/
def HasValue (env : Env) (oracle : Oracle) (root dot : V) (e : Expr) (v : V) : Prop :=
  ∃ t t', evalExpr env oracle root dot e t = .ok (v, t')

/-- `l` keeps, in order, exactly the values of a list for which `P` answers true. -/
inductive Keeps (P : V → Bool → Prop) : List V → List V → Prop
  | nil : Keeps P [] []
  | keep {v vs l} : P v true → Keeps P vs l → Keeps P (v :: vs) (v :: l)
  | drop {v vs l} : P v false → Keeps P vs l → Keeps P (v :: vs) l

/-- The answer of a filter expression for a candidate. -/
def Answer (env : Env) (oracle : Oracle) (root : V) (e : Expr) (c : V) (b : Bool) : Prop :=
  ∃ v, HasValue env oracle root c e v ∧ truthy env v = b

end Spec
end JP
