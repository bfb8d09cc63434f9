import Verif.Spec.Select
import Verif.Spec.Literals
import Verif.Spec.Print
import Verif.Spec.JsText
/-!
Places in a document.  Two equal values at different places are different occurrences; a place is the list
of the names and positions that lead to it from the root.
-/
namespace JP.Spec

/-- One step down into a document. -/
inductive Key where
  | index (i : Nat)
  | name (s : Bytes)
  deriving DecidableEq, Repr

/-- A place in a document: the way to it from the root. -/
abbrev Place := List Key

/-- The value `v` is found at a place of the document. -/
inductive At : V → Place → V → Prop
  | here (v) : At v [] v
  | elem {xs : List V} {i : Nat} {x : V} {p : Place} {v : V} : xs[i]? = some x → At x p v → At (.arr xs) (.index i :: p) v
  | member {kvs : List (Bytes × V)} {k : Bytes} {x : V} {p : Place} {v : V} :
      (k, x) ∈ kvs → At x p v → At (.obj kvs) (.name k :: p) v

/-- The values are those at the given places, one for one. -/
def Found (root : V) (places : List Place) (vs : List V) : Prop := All2 (At root) places vs

/-- The step descends any number of levels. -/
def Op.descends (op : Op) : Bool :=
  op == .nestMember || op == .nestSelect || op == .nestUnion || op == .nestWild || op == .nestFilter

/-- The step is a union of selectors, as in `[0,1]` or `..['a','b']`. -/
def Op.isUnion (op : Op) : Bool := op == .union || op == .nestUnion

/-- The number of steps of the path that descend. -/
def descents (q : Path) : Nat := (q.filter fun s => Op.descends s.op).length

mutual
/-- The number of values in a document, the document itself among them. -/
def count : V → Nat
  | .arr xs => 1 + counts xs
  | .obj kvs => 1 + countm kvs
  | _ => 1
/-- The number of values in the elements of an array. -/
def counts : List V → Nat
  | [] => 0
  | v :: r => count v + counts r
/-- The number of values in the members of an object. -/
def countm : List (Bytes × V) → Nat
  | [] => 0
  | (_, v) :: r => count v + countm r
end

/-! ## Paths that lead to one place -/

/-- A step that leads from a value to at most one: `.name`, `['name']`, `[name]`, `[n]` and `.n`; and
what it selects from a value. -/
inductive Single : Step → (V → List V) → Prop
  | dotName (s) : Single ⟨.member, [.name s]⟩ (memberOf s)
  | quoted (s) : Single ⟨.select, [.str s]⟩ (memberOf s)
  | bare (s) : Single ⟨.select, [.name s]⟩ (memberOf s)
  | index (n : Int64) : Single ⟨.select, [.int n]⟩ (indexOf true n.toInt)
  | dotIndex (n : Int64) : Single ⟨.member, [.int n]⟩ (indexOf false n.toInt)

/-- Follow the steps from a value. -/
def follow : List (V → List V) → V → List V
  | [], v => [v]
  | f :: fs, v => (f v).flatMap (follow fs)

/-- The text that leads to a place: `$["a"][0]`. -/
def address (p : Place) : Bytes :=
  c! '$' :: p.flatMap fun
    | .index i => c! '[' :: (writeNat i ++ b! "]")
    | .name s => c! '[' :: (writeStr (c! '"') s ++ b! "]")

/-- What is read at a place: as `At`, but a position in an object is the member of that name. -/
inductive ReadAt : V → Place → V → Prop
  | here (v) : ReadAt v [] v
  | elem {xs : List V} {i : Nat} {x : V} {p : Place} {v : V} : xs[i]? = some x → ReadAt x p v → ReadAt (.arr xs) (.index i :: p) v
  | member {kvs : List (Bytes × V)} {k : Bytes} {x : V} {p : Place} {v : V} :
      (k, x) ∈ kvs → ReadAt x p v → ReadAt (.obj kvs) (.name k :: p) v
  | digits {kvs : List (Bytes × V)} {i : Nat} {k : Bytes} {x : V} {p : Place} {v : V} :
      IntegerText i k → (k, x) ∈ kvs → ReadAt x p v → ReadAt (.obj kvs) (.index i :: p) v

end JP.Spec
