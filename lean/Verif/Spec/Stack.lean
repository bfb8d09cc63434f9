import Verif.Model.Api
import Verif.Spec.Program
/-!
The values that an evaluation holds.
-/
namespace JP.Spec

/-- The states of the machine in an evaluation of a path. -/
inductive During (env : Env) (oracle : Oracle) (p : JSONPath) (root : V) : MState → Prop
  | start : During env oracle p root (.init root)
  | order (s : MState) (o : Order) (s' : MState) : During env oracle p root s → p.prog.orders[s.pc]? = some o →
      step env oracle p.prog root o s = .ok s' → During env oracle p root s'

/-- How many values an order takes from the stack, and how many it leaves there. -/
def takesLeaves (o : Order) : Op → Int × Int
  | .null | .bool | .int | .real | .string | .bounds | .re | .id | .root | .current => (0, 1)
  | .array | .call => (o.smallInt.toInt, 1)
  | .neg | .not | .exp => (1, 1)
  | .dot | .index | .slice | .or | .and | .add | .sub | .mul | .div | .mod | .eq | .ne | .lt | .le | .ge | .gt | .match_ | .in_ | .nin => (2, 1)
  | .member | .select | .filter | .nestMember | .nestSelect | .nestFilter => (1, 0)
  | .union | .nestUnion => (o.smallInt.toInt, 0)
  | .wild | .nestWild | .for_ | .nest | .rep | .error => (0, 0)

/-- How much higher the stack is after an order. -/
def rise (o : Order) : Int :=
  match Op.ofNat? o.opNum with
  | some op => (takesLeaves o op).2 - (takesLeaves o op).1
  | none => 0

/-- How many more loops there are after an order. -/
def opens (o : Order) : Int :=
  match Op.ofNat? o.opNum with
  | some .for_ | some .nest => 1
  | some .rep => -1
  | _ => 0

/-- The sum of a quantity over orders. -/
def totalOf (f : Order → Int) (os : List Order) : Int := (os.map f).sum

/-- `$[0,0,…]`, with `,0` this often. -/
def zeros (n : Nat) : Bytes := b! "$[0" ++ (List.replicate n (b! ",0")).flatten ++ b! "]"

end JP.Spec
