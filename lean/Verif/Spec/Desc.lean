import Verif.Spec.WF
/-! The values found in a document. -/
namespace JP

/-- `Desc root v`: `v` is `root` or one of its descendants (elements of arrays, values of members). -/
inductive Desc (root : V) : V → Prop
  | root : Desc root root
  | elem {xs : List V} {x : V} : Desc root (.arr xs) → x ∈ xs → Desc root x
  | member {kvs : List (Bytes × V)} {k : Bytes} {x : V} : Desc root (.obj kvs) → (k, x) ∈ kvs → Desc root x

/-- Does the path contain a filter? -/
def Path.hasFilter (p : Path) : Bool := p.any fun s => s.op == .filter || s.op == .nestFilter

end JP
