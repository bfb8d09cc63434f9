import Verif.Spec.Grow
/-!
The steps of paths of names, integers and `*`, apart from their notation.
-/
namespace JP.Spec

/-- What a step selects: the member of a name, the element at an index, or everything. -/
inductive Pick where
  | name (s : Bytes)
  | index (n : Int)
  | all

/-- What is selected of a value. -/
def Pick.of : Pick → V → List V
  | .name s, v => memberOf s v
  | .index n, v => indexOf true n v
  | .all, v => kidsOf v

/-- One after the other. -/
def picked : List Pick → V → List V
  | [], v => [v]
  | x :: r, v => (x.of v).flatMap (picked r)

/-- An index that some array has: Go's arrays have fewer than 2^63 elements. -/
def Reachable (n : Int) : Prop := -2 ^ 63 < n ∧ n < 2 ^ 63 - 1

/-- How a step is to be read.  An index that no array has is the name that its digits spell, for it is used as such
with objects; and so is a negative number after a dot, which does not count from the end. -/
inductive ReadsPick : Step → Pick → Prop
  | dotName (s) : ReadsPick ⟨.member, [.name s]⟩ (.name s)
  | quoted (s) : ReadsPick ⟨.select, [.str s]⟩ (.name s)
  | bare (s) : ReadsPick ⟨.select, [.name s]⟩ (.name s)
  | index (n : Int64) : Reachable n.toInt → ReadsPick ⟨.select, [.int n]⟩ (.index n.toInt)
  | far (n : Int64) : ¬ Reachable n.toInt → ReadsPick ⟨.select, [.int n]⟩ (.name (intToBytes n.toInt))
  | dotIndex (n : Int64) : 0 ≤ n.toInt → Reachable n.toInt → ReadsPick ⟨.member, [.int n]⟩ (.index n.toInt)
  | dotFar (n : Int64) : 0 ≤ n.toInt → ¬ Reachable n.toInt → ReadsPick ⟨.member, [.int n]⟩ (.name (intToBytes n.toInt))
  | dotNegative (n : Int64) : n.toInt < 0 → ReadsPick ⟨.member, [.int n]⟩ (.name (intToBytes n.toInt))
  | wild : ReadsPick ⟨.wild, []⟩ .all

end JP.Spec
