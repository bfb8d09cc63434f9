import Verif.Spec.Float
import Verif.Model.Value
import Mathlib.Data.List.Forall2
/-!
When two documents are the same JSON value.
-/
namespace JP.Spec

/-- The number that a value is. -/
inductive IsNum : V → ℚ → Prop
  | gint (n) : IsNum (.gint n) n.toInt
  | int (n) : IsNum (.int n) n.toInt
  | float (x) : x.Finite → IsNum (.float x) x.val

/-- The same JSON value: numbers may be of different Go types, and the order of members does not matter. -/
inductive JsonEq : V → V → Prop
  | null : JsonEq .null .null
  | bool (b) : JsonEq (.bool b) (.bool b)
  | str (s) : JsonEq (.str s) (.str s)
  | number (a b q) : IsNum a q → IsNum b q → JsonEq a b
  | arr (xs ys) : List.Forall₂ JsonEq xs ys → JsonEq (.arr xs) (.arr ys)
  | obj (ms ns) : (∀ k, k ∈ ms.map Prod.fst ↔ k ∈ ns.map Prod.fst) → (∀ k v w, (k, v) ∈ ms → (k, w) ∈ ns → JsonEq v w) →
      JsonEq (.obj ms) (.obj ns)

/-- An integer that any float of the same value can be told from its neighbours by: at most 53 bits. -/
def Fits : V → Prop
  | .gint n | .int n => -2 ^ 53 ≤ n.toInt ∧ n.toInt ≤ 2 ^ 53
  | _ => True

/-- An integer, of either type. -/
def IsInt : V → Prop
  | .gint _ | .int _ => True
  | _ => False

/-- The values have the same JSON type, and so have their elements and members wherever both have one; and where one object
has a member that is null the other has a member of that name. -/
inductive SameKinds : V → V → Prop
  | null : SameKinds .null .null
  | bool (a b) : SameKinds (.bool a) (.bool b)
  | str (s t) : SameKinds (.str s) (.str t)
  | number (a b x y) : IsNum a x → IsNum b y → (IsInt a ∧ IsInt b) ∨ (Fits a ∧ Fits b) → SameKinds a b
  | arr (xs ys) : (∀ (i : Nat) (x y : V), xs[i]? = some x → ys[i]? = some y → SameKinds x y) → SameKinds (.arr xs) (.arr ys)
  | obj (ms ns) : (∀ k v w, (k, v) ∈ ms → (k, w) ∈ ns → SameKinds v w) → (∀ k, (k, .null) ∈ ms → k ∈ ns.map Prod.fst) →
      SameKinds (.obj ms) (.obj ns)

end JP.Spec
