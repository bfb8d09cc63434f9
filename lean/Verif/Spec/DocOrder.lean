import Verif.Spec.Locate
/-!
Document order.  Elements of an array come in order of their positions; the members of an object come in any
order, as Go's maps have none, but what lies below one member comes together.
-/
namespace JP.Spec

/-- The first key comes before the second: an earlier position, or another name. -/
inductive Precedes : Key → Key → Prop
  | index {i j : Nat} : i < j → Precedes (.index i) (.index j)
  | name {a b : Bytes} : a ≠ b → Precedes (.name a) (.name b)

/-- Places so many levels down, in document order: first all that lie below one key, then all below the next,
and so on, and again in document order below each key. -/
def DocOrder : Nat → List Place → Prop
  | 0, ps => ps = [] ∨ ps = [[]]
  | n + 1, ps => ∃ groups : List (Key × List Place), (groups.map Prod.fst).Pairwise Precedes ∧ (∀ g ∈ groups, DocOrder n g.2) ∧
      ps = groups.flatMap fun g => g.2.map (g.1 :: ·)

/-- The step goes forward: it is a name, an index, `*`, a filter, a computed key or a slice, without `..`, not a
union, and no slice has a negative stride. -/
def ForwardStep (s : Step) : Prop :=
  Op.descends s.op = false ∧ Op.isUnion s.op = false ∧ ∀ a b n, Val.slice ⟨a, b, some (.int n)⟩ ∈ s.args → 0 ≤ n.toInt

end JP.Spec
