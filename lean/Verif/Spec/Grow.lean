import Verif.Spec.Descent
import Verif.Spec.Shape
/-!
What paths of names, integers and `*` select, and documents that grow.
-/
namespace JP.Spec

/-- What a name or an integer selects of a value; negative integers count from the end if `neg` allows it. -/
def keyed (neg : Bool) : Val → V → List V
  | .name s, v | .str s, v => memberOf s v
  | .int n, v => indexOf neg n.toInt v
  | _, _ => []

/-- What a step selects of a value. -/
def stepOf (s : Step) (v : V) : List V :=
  match s.op with
  | .wild => kidsOf v
  | .member => s.args.flatMap fun a => keyed false a v
  | .select | .union => s.args.flatMap fun a => keyed true a v
  | .nestWild => (pre v).flatMap kidsOf
  | .nestMember => (pre v).flatMap fun w => s.args.flatMap fun a => keyed false a w
  | .nestSelect | .nestUnion => (pre v).flatMap fun w => s.args.flatMap fun a => keyed true a w
  | _ => []

/-- What a path selects of a value, up to order. -/
def pathOf : Path → V → List V
  | [], v => [v]
  | s :: r, v => (stepOf s v).flatMap (pathOf r)

/-- All steps are names, integers, unions of these, or `*`, with or without `..`. -/
def PlainPath (q : Path) : Prop := ∀ s ∈ q, PlainStep s ∨ ∃ s', PlainStep s' ∧ s = withDots s'

/-- No integer in the path is negative. -/
def NonNegative (q : Path) : Prop := ∀ s ∈ q, ∀ n, Val.int n ∈ s.args → 0 ≤ n.toInt

/-- The second value is the first, or has more elements at the end of arrays and more members in objects. -/
inductive GrowsTo : V → V → Prop
  | scalar {v : V} : Scalar v → GrowsTo v v
  | arr {xs ys zs : List V} : List.Forall₂ GrowsTo xs ys → GrowsTo (.arr xs) (.arr (ys ++ zs))
  | obj {ms ms' ns more : List (Bytes × V)} : ms.map Prod.fst = ms'.map Prod.fst → List.Forall₂ GrowsTo (ms.map Prod.snd) (ms'.map Prod.snd) →
      ns.Perm (ms' ++ more) → GrowsTo (.obj ms) (.obj ns)

/-- Each of the first values has grown into one of the second, different ones into different ones. -/
def Kept (vs vs' : List V) : Prop := ∃ ws rest, vs'.Perm (ws ++ rest) ∧ List.Forall₂ GrowsTo vs ws

end JP.Spec
