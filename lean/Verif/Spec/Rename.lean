import Verif.Spec.Eval
/-!
Members of objects under other names, and paths that refer to them by these names.
-/
namespace JP.Spec

mutual
/-- The value with every member called `k` called `f k` instead, at any depth. -/
def rename (f : Bytes → Bytes) : V → V
  | .arr xs => .arr (renameElements f xs)
  | .obj ms => .obj (renameMembers f ms)
  | v => v
/-- Each of a list. -/
def renameElements (f : Bytes → Bytes) : List V → List V
  | [] => []
  | x :: xs => rename f x :: renameElements f xs
/-- Each member of an object. -/
def renameMembers (f : Bytes → Bytes) : List (Bytes × V) → List (Bytes × V)
  | [] => []
  | (k, x) :: ms => (f k, rename f x) :: renameMembers f ms
end

/-- A selector with the other name: names are written with or without quotes. -/
def renameVal (f : Bytes → Bytes) : Val → Val
  | .name s => .name (f s)
  | .str s => .str (f s)
  | v => v

/-- A path with the other names in its steps. -/
def renamePath (f : Bytes → Bytes) (q : Path) : Path := q.map fun s => ⟨s.op, s.args.map (renameVal f)⟩

/-- The path has no filters and no other expressions, and the names that its integers stand for in objects are not changed. -/
def Renames (f : Bytes → Bytes) (q : Path) : Prop :=
  ∀ s ∈ q, s.op ≠ .filter ∧ s.op ≠ .nestFilter ∧ (∀ e, Val.expr e ∉ s.args) ∧
    ∀ n : Int64, Val.int n ∈ s.args → f (intToBytes n.toInt) = intToBytes n.toInt

end JP.Spec
