import Verif.Spec.Select
/-!
Steps with and without `..`.
-/
namespace JP.Spec

/-- The children of a value. -/
def kidsOf : V → List V
  | .arr xs => xs
  | .obj kvs => kvs.map Prod.snd
  | _ => []

mutual
/-- The arrays and objects at and below a value. -/
def pre : V → List V
  | .arr xs => .arr xs :: pres xs
  | .obj kvs => .obj kvs :: prem kvs
  | _ => []
/-- Of a list. -/
def pres : List V → List V
  | [] => []
  | v :: r => pre v ++ pres r
/-- Of members. -/
def prem : List (Bytes × V) → List V
  | [] => []
  | (_, v) :: r => pre v ++ prem r
end

/-- The operator of a step with `..` before it. -/
def dotsOp : Op → Op
  | .member => .nestMember
  | .select => .nestSelect
  | .union => .nestUnion
  | .wild => .nestWild
  | .filter => .nestFilter
  | op => op

/-- The step with `..` before it. -/
def withDots (s : Step) : Step := ⟨dotsOp s.op, s.args⟩

/-- A name, quoted or not, or an integer. -/
inductive PlainKey : Val → Prop
  | name (s : Bytes) : PlainKey (.name s)
  | str (s : Bytes) : PlainKey (.str s)
  | int (n : Int64) : PlainKey (.int n)

/-- A step with only such keys: `.name`, `.1`, `['name']`, `[1]`, `['name',1]`, `.*`. -/
inductive PlainStep : Step → Prop
  | wild : PlainStep ⟨.wild, []⟩
  | member (s : Bytes) : PlainStep ⟨.member, [.name s]⟩
  | index (n : Int64) : PlainStep ⟨.member, [.int n]⟩
  | select (v : Val) : PlainKey v → PlainStep ⟨.select, [v]⟩
  | union (vs : List Val) : (∀ v ∈ vs, PlainKey v) → PlainStep ⟨.union, vs⟩

end JP.Spec
