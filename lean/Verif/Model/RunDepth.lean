import Verif.Model.Api
/-!
mach/run.go and mach/json.go with limited stacks: as in `Model/Machine` and `Model/Conv`, but every call of a function that calls itself
(`walkdown`, `eqVal`) takes one frame of those that are left in its goroutine, and returning gives it back.  The calls that lead there
(`Eval`, `Run`, `looptop`, `walker`, `searchJSON`, `call`) are not counted.  A goroutine that finds no frame left ends the program, here with a
panic.  A simplification: if `walkdown` comes to the end of its stack it does so when the loop is entered, not when the loop gets there.

A comparison of objects that stops at the first difference may or may not come to the end of the stack, depending on the order of the
members.  `pick` gives the order for the comparisons that are made in a state of the machine (an evaluation that ends is never twice in the
same state).
-/
namespace JP

/-- A call when `d` frames are left. -/
def dframe {α : Type} (d : Nat) (k : Nat → Res RErr α) : Res RErr α :=
  match d with
  | 0 => .panic "stack overflow"
  | d + 1 => k d

/-- mach/json.go:249-254: the loop over members, with what each comparison gives; it ends at the first difference. -/
def allOf : List (Res RErr Bool) → Res RErr Bool
  | [] => .ok true
  | x :: r => do
    let b ← x
    if b then allOf r else .ok false

mutual
/-- mach/json.go:150-259 `eqVal`. -/
def dEqVal (env : Env) (ord : Ord) (loc : List Nat) (a b : V) (d : Nat) : Res RErr Bool := dframe d fun d =>
  if typeOf a != typeOf b then .ok (eqMixed env a b)
  else match a with
    | .arr xs => (match b with
      | .arr ys => if xs.length == ys.length then dEqElems env ord loc 0 xs ys d else .ok false
      | _ => .ok false)
    | .obj kvs => (match b with
      | .obj mvs => if kvs.length == mvs.length then allOf (permute (ord loc kvs.length) (dEqMembers env ord loc 0 kvs mvs d)) else .ok false
      | _ => .ok false)
    | a => .ok (eqVal env a b)
/-- mach/json.go:238-242. -/
def dEqElems (env : Env) (ord : Ord) (loc : List Nat) (i : Nat) : List V → List V → Nat → Res RErr Bool
  | [], _, _ => .ok true
  | _ :: _, [], _ => .ok true
  | x :: xs, y :: ys, d => do
    let r ← dEqVal env ord (i :: loc) x y d
    if r then dEqElems env ord loc (i + 1) xs ys d else .ok false
/-- mach/json.go:249-253: what the comparison of each member gives. -/
def dEqMembers (env : Env) (ord : Ord) (loc : List Nat) (i : Nat) : List (Bytes × V) → List (Bytes × V) → Nat → List (Res RErr Bool)
  | [], _, _ => []
  | (k, v) :: r, m, d => dEqVal env ord (i :: loc) v ((lookup m k).getD .null) d :: dEqMembers env ord loc (i + 1) r m d
end

/-- mach/json.go:264-271 `searchJSON`. -/
def dSearch (env : Env) (ord : Ord) (d : Nat) (v : V) (f : Bool) (i : Nat) : List V → Res RErr Bool
  | [] => .ok (!f)
  | el :: r => do
    let b ← dEqVal env ord [i] el v d
    if b then .ok f else dSearch env ord d v f (i + 1) r

/-- mach/fns.go:91-97: the loop of `contains` on an array. -/
def dContains (env : Env) (ord : Ord) (d : Nat) (x : V) (i : Nat) : List V → Res RErr Bool
  | [] => .ok false
  | v :: r => do
    let b ← dEqVal env ord [i] v x d
    if b then .ok true else dContains env ord d x (i + 1) r

/-- mach/run.go:513-522 `call`; the only function that compares is `contains` of an array (mach/fns.go:91-97). -/
def dCall (env : Env) (ord pick : Ord) (d : Nat) (id : Bytes) (args : List V) : Res RErr V :=
  if id = b! "contains" then
    match args with
    | [.arr xs, x] => do
      let b ← dContains env pick d x 0 xs
      .ok (.bool b)
    | args => call env ord id args
  else call env ord id args

/-- mach/run.go:840-846: the loop over members, with what `walkdown` of each sends. -/
def gather : List (Res RErr (List V)) → Res RErr (List V)
  | [] => .ok []
  | x :: r => do
    let vs ← x
    let ws ← gather r
    .ok (vs ++ ws)

mutual
/-- mach/run.go:837-857 `walkdown`: the values sent, in order. -/
def dWalkdown (ord : Ord) (loc : List Nat) (v : V) (d : Nat) : Res RErr (List V) := dframe d fun d =>
  match v with
  | .arr xs => do
    let r ← dWalkElems ord loc 0 xs d
    .ok (.arr xs :: r)
  | .obj kvs => do
    let r ← gather (permute (ord loc kvs.length) (dWalkMembers ord loc 0 kvs d))
    .ok (.obj kvs :: r)
  | v => .ok [v]
/-- mach/run.go:847-853. -/
def dWalkElems (ord : Ord) (loc : List Nat) (i : Nat) : List V → Nat → Res RErr (List V)
  | [], _ => .ok []
  | v :: r, d => do
    let vs ← if isStructure v then dWalkdown ord (i :: loc) v d else .ok []
    let ws ← dWalkElems ord loc (i + 1) r d
    .ok (vs ++ ws)
/-- mach/run.go:840-846: what is sent for each member. -/
def dWalkMembers (ord : Ord) (loc : List Nat) (i : Nat) : List (Bytes × V) → Nat → List (Res RErr (List V))
  | [], _ => []
  | (_, v) :: r, d => (if isStructure v then dWalkdown ord (i :: loc) v d else .ok []) :: dWalkMembers ord loc (i + 1) r d
end

/-- mach/run.go:828-835 `walker`: the values sent, in order. -/
def dWalker (ord : Ord) (d : Nat) (k : Nat) : List V → Res RErr (List V)
  | [] => .ok []
  | v :: r => do
    let vs ← if isStructure v then dWalkdown ord [k] v d else .ok []
    let ws ← dWalker ord d (k + 1) r
    .ok (vs ++ ws)

/-- mach/run.go:131-483: execution of one order when every goroutine has `d` frames: the orders that may call `walkdown` or `eqVal`. -/
def dExec (d : Nat) (env : Env) (oracle : Oracle) (pick : Ord) (prog : Program) (root : V) (o : Order) (op : Op)
    (s : MState) : Res RErr MState :=
  let size := prog.orders.length
  let ord := oracle s.tick
  let s1 := { s with tick := s.tick + 1 }
  match op with
  -- run.go:224-226, 534-546
  | .nest => match o.pc with
    | none => .panic "pc must be small int"
    | some epc => do
      let vals ← dWalker ord d 0 s1.out.elems
      looptop size epc vals s1
  -- run.go:472-480
  | .call => do
    let (args, st) ← popN o.smallInt s.stack
    match args with
    | .name id :: rest => do
      let r ← dCall env ord pick d id rest
      .ok { s1 with stack := r :: st }
    | [] => .panic "index out of range"
    | _ => .panic "interface conversion"
  -- run.go:402-409
  | .eq | .ne => match s.stack with
    | b :: a :: st => do
      let r ← dEqVal env pick [] a b d
      .ok { s with stack := .bool (if op == .eq then r else !r) :: st }
    | _ => .panic "stack underflow"
  -- run.go:460-471
  | .in_ | .nin => match s.stack with
    | b :: a :: st =>
      if isNothing a || isNothing b then .ok { s with stack := .nothing :: st }
      else match b with
      | .arr xs => do
        let r ← dSearch env pick d a (op == .in_) 0 xs
        .ok { s with stack := .bool r :: st }
      | _ => .err (.inRight op b)
    | _ => .panic "stack underflow"
  | op => exec env oracle prog root o op s

/-- mach/run.go:128-130. -/
def dStep (d : Nat) (env : Env) (oracle : Oracle) (pick : MState → Ord) (prog : Program) (root : V) (o : Order) (s : MState) :
    Res RErr MState :=
  let t := { s with pc := s.pc + 1 }
  match Op.ofNat? o.opNum with
  | some op => dExec d env oracle (pick s) prog root o op t
  | none => .err (.unimplemented o.opNum (t.pc - 1))

/-- mach/run.go:126-510 `Run`. -/
def dRun (d : Nat) (env : Env) (oracle : Oracle) (pick : MState → Ord) (prog : Program) (root : V) (s : MState) :
    Option (Res RErr GoSlice) :=
  match prog.orders[s.pc]? with
  | none => some (.ok s.result)
  | some o =>
    match dStep d env oracle pick prog root o s with
    | .ok s' => dRun d env oracle pick prog root s'
    | .err e => some (.err e)
    | .panic m => some (.panic m)
    | .stuck => some .stuck
partial_fixpoint

/-- jsonpath.go:91-93 `Eval` when every goroutine has `d` frames. -/
def dEval (d : Nat) (env : Env) (oracle : Oracle) (pick : MState → Ord) (p : JSONPath) (root : V) : Option (Res RErr GoSlice) :=
  dRun d env oracle pick p.prog root (.init root)

end JP
