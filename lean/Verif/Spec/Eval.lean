import Verif.Model.Machine
/-!
A direct reading of a path: no program, no stack, no program counter.  An expression is evaluated as a
tree, and a path step by step, each step acting on the result set of the previous one.

The operators on values (`binop`, `unop`, `call`) and the selection of values by a key (`valsByKey`)
are those of the model; what they mean is stated on its own in the properties about them.

`t` counts the operations that iterate over maps, to consult the oracle for the iteration order in the
same places as the machine does.
-/
namespace JP.Spec

/-- Apply an operator to the values of its operands.  `stuck` for an operator that is given the wrong
number of operands, which well-formed trees exclude. -/
def applyOp (env : Env) (ord : Ord) (op : Op) (vs : List V) : Res RErr V :=
  match op with
  | .array => .ok (.arr vs)
  | .call => match vs with
    | .name id :: args => call env ord id args
    | _ => .stuck
  | _ => match vs with
    | [v] => match unop env op v with
      | some r => .ok r
      | none => .stuck
    | [a, b] => match binop env op a b with
      | some r => r
      | none => .stuck
    | _ => .stuck

mutual
/-- The value of an expression tree, with `@` denoting `dot` and `$` denoting `root`. -/
def evalExpr (env : Env) (oracle : Oracle) (root dot : V) : Expr → Nat → Res RErr (V × Nat)
  | .int n, t => .ok (.int n, t)
  | .float f, t => .ok (.float f, t)
  | .str s, t => .ok (.str s, t)
  | .bool b, t => .ok (.bool b, t)
  | .null, t => .ok (.null, t)
  | .name s, t => .ok (.name s, t)
  | .re p, t => .ok (.re p, t)
  | .current, t => .ok (dot, t)
  | .root, t => .ok (root, t)
  | .inner op kids, t => do
    let (vs, t) ← evalKids env oracle root dot kids t
    let v ← applyOp env (oracle t) op vs
    .ok (v, if op = .call then t + 1 else t)
/-- The values of the operands, left to right. -/
def evalKids (env : Env) (oracle : Oracle) (root dot : V) : List Expr → Nat → Res RErr (List V × Nat)
  | [], t => .ok ([], t)
  | e :: r, t => do
    let (v, t) ← evalExpr env oracle root dot e t
    let (vs, t) ← evalKids env oracle root dot r t
    .ok (v :: vs, t)
end

/-- The value of an argument of a step. -/
def evalVal (env : Env) (oracle : Oracle) (root dot : V) : Val → Nat → Res RErr (V × Nat)
  | .name s, t => .ok (.name s, t)
  | .int n, t => .ok (.int n, t)
  | .str s, t => .ok (.str s, t)
  | .slice s, t => .ok (.slice s, t)
  | .expr e, t => evalExpr env oracle root dot e t

/-- The values of the arguments of a step, left to right. -/
def evalVals (env : Env) (oracle : Oracle) (root dot : V) : List Val → Nat → Res RErr (List V × Nat)
  | [], t => .ok ([], t)
  | a :: r, t => do
    let (v, t) ← evalVal env oracle root dot a t
    let (vs, t) ← evalVals env oracle root dot r t
    .ok (v :: vs, t)

/-- What one value `dot`, visited by a filter or by recursive descent, adds to the result set `out`,
given the values of the step's arguments. -/
def visit (env : Env) (ord : Ord) (op : Op) (dot : V) (vs : List V) (out : GoSlice) : Res RErr GoSlice :=
  match op, vs with
  | .filter, [v] | .nestFilter, [v] => .ok (if !isNothing v && cvb env v then out.append dot else out)
  | .nestMember, [sel] => if isNothing sel then .ok out else valsByKey env out dot sel false
  | .nestSelect, [sel] => if isNothing sel then .ok out else valsByKey env out dot sel true
  | .nestUnion, sels => unionByKeys env out dot sels
  | .nestWild, [] => .ok (out.appendAll (children ord [0] dot))
  | _, _ => .stuck

/-- Visit a list of values in turn; the arguments of the step are evaluated afresh for each. -/
def visits (env : Env) (oracle : Oracle) (root : V) (s : Step) : List V → GoSlice → Nat → Res RErr (GoSlice × Nat)
  | [], out, t => .ok (out, t)
  | dot :: r, out, t => do
    let (vs, t) ← evalVals env oracle root dot s.args t
    let out ← visit env (oracle t) s.op dot vs out
    visits env oracle root s r out (if s.op = .nestWild then t + 1 else t)

/-- The values visited by a loop.  When there is a result set but it has nothing to visit, the Go code
receives a nil from a closed channel and visits that (mach/run.go:545). -/
def visited (vals : List V) : List V := if vals.isEmpty then [.null] else vals

/-- A step that visits values: nothing happens when the result set is empty. -/
def loop (env : Env) (oracle : Oracle) (root : V) (s : Step) (vals : List V) (out : GoSlice) (t : Nat) :
    Res RErr (GoSlice × Nat) :=
  if out.elems.isEmpty then .ok (out, t)
  else visits env oracle root s (visited vals) (some []) t

/-- One step applied to a result set. -/
def evalStep (env : Env) (oracle : Oracle) (root : V) (s : Step) (out : GoSlice) (t : Nat) :
    Res RErr (GoSlice × Nat) :=
  match s.op with
  | .wild => do
    let out ← applySelection (fun k el acc => .ok (acc.appendAll (children (oracle t) [k] el))) 0 (some []) out.elems
    .ok (out, t + 1)
  | .member | .select => do
    let (vs, t) ← evalVals env oracle root .null s.args t
    match vs with
    | [sel] =>
      if isNothing sel then .ok (some [], t)
      else do
        let out ← applySelection (fun _ el acc => valsByKey env acc el sel (s.op == .select)) 0 (some []) out.elems
        .ok (out, t)
    | _ => .stuck
  | .union => do
    let (vs, t) ← evalVals env oracle root .null s.args t
    let out ← applySelection (fun _ el acc => unionByKeys env acc el vs) 0 (some []) out.elems
    .ok (out, t)
  | .filter => loop env oracle root s (stepping (oracle t) 0 out.elems) out (t + 1)
  | .nestMember | .nestSelect | .nestUnion | .nestWild | .nestFilter =>
    loop env oracle root s (walker (oracle t) 0 out.elems) out (t + 1)
  | _ => .stuck

/-- A path applied to a result set, step by step. -/
def evalSteps (env : Env) (oracle : Oracle) (root : V) : Path → GoSlice → Nat → Res RErr (GoSlice × Nat)
  | [], out, t => .ok (out, t)
  | s :: r, out, t => do
    let (out, t) ← evalStep env oracle root s out t
    evalSteps env oracle root r out t

/-- A path applied to a document: start with the root, return a non-nil slice. -/
def evalPath (env : Env) (oracle : Oracle) (root : V) (p : Path) : Res RErr GoSlice := do
  let (out, _) ← evalSteps env oracle root p (some [root]) 0
  .ok (some out.elems)

end JP.Spec
