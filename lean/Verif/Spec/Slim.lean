import Verif.Spec.Desc
/-!
Documents and paths for which it makes no difference in which order Go iterates over maps.
-/
namespace JP.Spec

/-- No object in the value has more than one member. -/
def Slim (v : V) : Prop := ∀ kvs, Desc v (.obj kvs) → kvs.length ≤ 1

/-- The path selects by keys only: it has neither `*` nor filters nor `..`. -/
def Straight (q : Path) : Prop := ∀ s ∈ q, s.op = .member ∨ s.op = .select ∨ s.op = .union

end JP.Spec
