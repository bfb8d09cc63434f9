import Verif.Spec.Conc
/-!
What is counted of the goroutines of an evaluation.
-/
namespace JP.Spec

/-- The steps of a path that look at values one at a time: filters, and everything after `..`. -/
def oneByOne (s : JP.Step) : Bool :=
  match s.op with
  | .filter | .nestFilter | .nestMember | .nestSelect | .nestUnion | .nestWild => true
  | _ => false

/-- How many of them the path has. -/
def loopSteps (q : Path) : Nat := (q.filter oneByOne).length

end JP.Spec

namespace JP.Conc

/-- The evaluation started this goroutine, and it has not ended. -/
def Eval.Open (E : Eval) (c : Nat) : Prop := ∃ P, E.prods[c]? = some P ∧ P.closed = false

/-- How many goroutines the evaluation has started so far. -/
def Eval.goroutines (E : Eval) : Nat := E.prods.length

end JP.Conc
