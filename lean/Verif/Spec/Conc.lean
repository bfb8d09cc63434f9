import Verif.Model.Conc
/-!
What a user of the package sees of evaluations that run at the same time: that they were called, and what they
returned.
-/
namespace JP.Conc

/-- `Eval` is called in state `x`, as evaluation number `e`, with the program at `prog` and the document `root`. -/
def CallAt (x y : Sys) (e : Nat) (prog : Addr) (root : HV) (oracle : Oracle) : Prop :=
  e ≠ 0 ∧ x.evals e = none ∧ x.Known prog ∧ y = x.update e ⟨prog, root, oracle, begin root, []⟩ x.heap

/-- `z` is a state that the system may be in, and in its past (somewhere, among any number of other calls) `Eval` was
called as evaluation number `e`, with program `p` and document `v`. -/
def History (env : Env) (grow : Nat → Nat) (e : Nat) (p : Program) (v : V) (oracle : Oracle) (z : Sys) : Prop :=
  ∃ x y prog root, Steps env grow Sys.empty x ∧ x.heap.get prog = some (.prog p) ∧ Rep x.Known x.heap root v ∧
    CallAt x y e prog root oracle ∧ Steps env grow y z

/-- The evaluation has returned (or panicked), with this result: for an array, its elements as they are in memory. -/
def Returned (h : Heap) (E : Eval) : Res RErr GoSlice → Prop
  | .ok (some vs) => ∃ r, E.code = .ret (.ok (.halt r)) ∧ Rep (fun _ => True) h (.arr r) (.arr vs)
  | .ok none => False
  | .err x => E.code = .ret (.err x)
  | .panic m => E.code = .ret (.panic m)
  | .stuck => E.code = .ret .stuck

/-- The address is that of an array or a map that the value consists of. -/
inductive Within (h : Heap) : HV → Addr → Prop where
  | arr (r : SRef) : Within h (.arr r) r.arr
  | obj (a : Addr) : Within h (.obj a) a
  | elem (r : SRef) (i : Nat) (x : HV) (b : Addr) (hi : i < r.len) (hc : h.cell r.arr (r.off + i) = some x)
      (hx : Within h x b) : Within h (.arr r) b
  | member (a : Addr) (m : List (Bytes × HV)) (k : Bytes) (x : HV) (b : Addr) (hg : h.get a = some (.members m))
      (hm : (k, x) ∈ m) (hx : Within h x b) : Within h (.obj a) b

/-- The next action of the code writes to `a`. -/
def Writes {α : Type} (c : Prog α) (a : Addr) : Prop := ∃ i v k, c = .write a i v k

/-- The next action of the code reads `a`. -/
def Reads {α : Type} (h : Heap) (c : Prog α) (a : Addr) : Prop :=
  match c with
  | .read b _ _ | .find b _ _ | .range b _ | .order b _ _ | .const b _ _ | .size b _ => a = b
  | .load x _ => Within h x a
  | _ => False

/-- The next step of the producer reads `a`. -/
def Producer.Reads (h : Heap) (P : Producer) (a : Addr) : Prop :=
  P.pending = none ∧
  match P.frames with
  | .each _ r i :: _ => i < r.len ∧ (a = r.arr ∨ h.cell r.arr (r.off + i) = some (.obj a))
  | .elems r _ :: _ | .downElems r _ _ :: _ => a = r.arr
  | .down (.obj b) _ :: _ => a = b
  | _ => False

/-- A step of one goroutine of evaluation `e`, or of two of its goroutines that meet. -/
def EStep (env : Env) (grow : Nat → Nat) (e : Nat) (y z : Sys) : Prop :=
  ∃ E E' h', y.evals e = some E ∧ EvalStep env grow e y.heap E h' E' ∧ z = y.update e E' h'

end JP.Conc
