import Verif.Proof.Sim
import Verif.Proof.Size
/-! How many orders the machine executes for a step and for a path, as the simulation counts them. -/
namespace JP
open Spec

/-- The step is done in a loop. -/
def loops (op : Op) : Bool :=
  match op with
  | .filter | .nestMember | .nestSelect | .nestUnion | .nestWild | .nestFilter => true
  | _ => false

/-- The number of times that the body of a loop is executed. -/
def visitCount (oracle : Oracle) (st : Step) (out : GoSlice) (t : Nat) : Nat :=
  if out.elems.isEmpty then 0
  else (visited (match st.op with
    | .filter => stepping (oracle t) 0 out.elems
    | _ => walker (oracle t) 0 out.elems)).length

/-- The number of orders executed for a step whose code has `k` orders. -/
def stepCost (oracle : Oracle) (st : Step) (out : GoSlice) (t k : Nat) : Nat :=
  if loops st.op then 1 + visitCount oracle st out t * (k - 1) else k

/-- What follows on success costs so much. -/
def costThen {α : Type} (k : α → Nat) : Res RErr α → Nat
  | .ok a => k a
  | _ => 0

/-- The number of orders executed for a path, if all goes well, and otherwise a bound on it. -/
def cost (env : Env) (oracle : Oracle) (root : V) : Path → GoSlice → Nat → Nat
  | [], _, _ => 0
  | st :: r, out, t =>
    stepCost oracle st out t st.size +
      costThen (fun x => cost env oracle root r x.1 x.2) (evalStep env oracle root st out t)

theorem codePathStep_orders {st : Step} (hw : st.WF) {p p' : Program} (h : codePathStep st p = .ok p') :
    p'.orders.length = p.orders.length + st.size := by
  have := codePathStep_sz st hw p
  rw [h] at this
  exact this.orders

end JP
