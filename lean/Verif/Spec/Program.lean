import Verif.Model.Order
/-!
The orders of a program.
-/
namespace JP.Spec

/-- The operator of an order. -/
def Does (o : Order) (op : Op) : Prop := Op.ofNat? o.opNum = some op

/-- The operators that begin and end loops. -/
def loopOps : List Op := [.for_, .nest, .rep]

/-- The operators for which there is no use. -/
def unusedOps : List Op := [.error, .exp, .slice]

/-- An order that does not jump. -/
def Straightforward (o : Order) : Prop := ∃ op, Does o op ∧ op ∉ loopOps ∧ op ∉ unusedOps

/-- Orders and loops, one after the other, from the order number `n` on.  A loop begins with the number of the order
after its end, and ends with the number of the order after its beginning; there are no loops in it. -/
inductive OrdersAndLoops : Nat → List Order → Prop
  | nil (n) : OrdersAndLoops n []
  | order (n o os) : Straightforward o → OrdersAndLoops (n + 1) os → OrdersAndLoops n (o :: os)
  | loop (n f body r os) : Does f .for_ ∨ Does f .nest → f.pc = some (Int64.ofNat (n + body.length + 2)) →
      (∀ o ∈ body, Straightforward o) → Does r .rep → r.pc = some (Int64.ofNat (n + 1)) →
      OrdersAndLoops (n + body.length + 2) os → OrdersAndLoops n (f :: (body ++ r :: os))

/-- `$..a..a…`, with `..a` this often. -/
def descending (k : Nat) : Bytes := b! "$" ++ (List.replicate k (b! "..a")).flatten

end JP.Spec
