import Verif.Spec.Locate
/-!
In how many ways a path leads to a place.
-/
namespace JP.Spec

/-- `f 0 + f 1 + … + f n` -/
def sumTo (f : Nat → Nat) : Nat → Nat
  | 0 => f 0
  | n + 1 => sumTo f n + f (n + 1)

/-- The number of selectors of a step. -/
def width (s : Step) : Nat := if Op.isUnion s.op then s.args.length else 1

/-- How often a step can lead from a place to a place `j` levels below it: one level down for each selector; any
number of levels from one on for steps that descend, and from none on for the filter that does. -/
def reach (s : Step) (j : Nat) : Nat :=
  if s.op = .nestFilter then 1
  else if Op.descends s.op then (if j = 0 then 0 else width s)
  else if j = 1 then width s else 0

/-- The ways of a path and then a step to a place `d` levels down, from those of the path. -/
def onward (s : Step) (m : Nat → Nat) (d : Nat) : Nat := sumTo (fun j => m j * reach s (d - j)) d

/-- The number of ways in which a path can lead to a place, by the level of the place. -/
def ways (q : Path) : Nat → Nat := q.foldl (fun m s => onward s m) (fun d => if d = 0 then 1 else 0)

/-- The product of the numbers of selectors of the steps. -/
def widths (q : Path) : Nat := q.foldl (fun w s => w * width s) 1

mutual
/-- The number of levels of a document below its root. -/
def height : V → Nat
  | .arr xs => heights xs
  | .obj kvs => heightm kvs
  | _ => 0
/-- The number of levels of an array with the given elements. -/
def heights : List V → Nat
  | [] => 0
  | v :: r => max (height v + 1) (heights r)
/-- The number of levels of an object with the given members. -/
def heightm : List (Bytes × V) → Nat
  | [] => 0
  | (_, v) :: r => max (height v + 1) (heightm r)
end

/-- The step is `*`, with or without descent. -/
def Wild (s : Step) : Prop := s = ⟨.wild, []⟩ ∨ s = ⟨.nestWild, []⟩

end JP.Spec
