import Verif.Model.Fns
import Verif.Model.Order
import Verif.Model.Sprint
/-!
mach/run.go: the abstract machine.

Producer goroutines (`stepping`, `walker`) are represented here by the list of the values they have
yet to send; `Verif/Model/Conc.lean` models them as processes and proves that this is justified.
-/
namespace JP

/-! ## Selection -/

/-- mach/run.go:551-613 `sliceEval`. -/
def sliceEval (slice : Slice) (l : Int64) : Int64 × Int64 × Int64 :=
  let stride : Int64 := match slice.stride with | some b => b.cvi | none => 1
  let start : Int64 := match slice.start with
    | some b => b.cvi
    | none => if stride < 0 then l - 1 else 0
  let stop : Int64 := match slice.stop with
    | some b => b.cvi
    | none => if stride < 0 then -l - 1 else l
  if stride < 0 then
    let start := if start ≥ l then l - 1
      else if start < 0 then (if start + l < 0 then -1 else start + l) else start
    let stop := if stop > l then l
      else if stop < 0 then (if stop + l < 0 then -1 else stop + l) else stop
    (start, stop, stride)
  else
    let start := if start > l then l
      else if start < 0 then (if start + l < 0 then 0 else start + l) else start
    let stop := if stop > l then l
      else if stop < 0 then (if stop + l < 0 then 0 else stop + l) else stop
    (start, stop, stride)

/-- `src[i]` for an `int64` index: `none` is the run-time panic. -/
def goIndex (src : List V) (i : Int64) : Option V :=
  if i < 0 then none else src[i.toInt.toNat]?

/-- mach/run.go:726-728 and 730-732: `for i := start; i < end; i += stride` (`up`) and
`for i := start; i > end; i += stride`.  `i += stride` wraps around.  The fuel is an upper bound on
the iterations (one per element, plus one for a wrapped index); `stuck` is proved unreachable. -/
def sliceLoop (up : Bool) (src : List V) (stop stride : Int64) :
    (fuel : Nat) → (i : Int64) → (acc : List V) → Res RErr (List V)
  | 0, _, _ => .stuck
  | f + 1, i, acc =>
    if (if up then i < stop else i > stop) then
      match goIndex src i with
      | some v => sliceLoop up src stop stride f (i + stride) (acc ++ [v])
      | none => .panic "index out of range"
    else .ok acc

/-- mach/run.go:724-736: the values selected by a slice of an array. -/
def sliceVals (src : List V) (slice : Slice) : Res RErr (List V) :=
  let (start, stop, stride) := sliceEval slice (Int64.ofNat src.length)
  if stride > 0 then sliceLoop true src stop stride (src.length + 2) start []
  else if stride < 0 then sliceLoop false src stop stride (src.length + 2) start []
  else .ok []

/-- mach/run.go:676-696 `slicing` (used by `OpSlice` only, which the compiler never emits). -/
def slicing (src : List V) (slice : Slice) : Res RErr (List V) :=
  let (start, stop, stride) := sliceEval slice (Int64.ofNat src.length)
  if stride == 1 then
    if start ≤ stop then .ok ((src.take stop.toInt.toNat).drop start.toInt.toNat)
    else .panic "slice bounds out of range"
  else sliceVals src slice

/-- mach/run.go:760-773 `mapKey`. -/
def mapKey (env : Env) : V → Bytes
  | .str s => s
  | .float f => intToBytes (f2i env f).toInt
  | .name s => s
  | v => sprint env v

/-- mach/run.go:775-806 `valByKey`: `none` is the second result false. -/
def valByKey (env : Env) (src key : V) (negIndex : Bool) : Option V :=
  match src with
  | .obj kvs => lookup kvs (mapKey env key)
  | .arr xs =>
    let l := Int64.ofNat xs.length
    let n := cvi env key
    let n := if negIndex && n < 0 then n + l else n
    if n ≥ 0 && n < l then goIndex xs n else none
  | .null => some .null
  | _ => none

/-- mach/run.go:716-757 `valsByKey`. A slice applied to a non-array returns nil (720), whatever
`vals` was. -/
def valsByKey (env : Env) (vals : GoSlice) (src key : V) (negIndex : Bool) : Res RErr GoSlice :=
  match key with
  | .slice s =>
    match src with
    | .arr xs => do
      let vs ← sliceVals xs s
      .ok (vals.appendAll vs)
    | _ => .ok none
  | _ =>
    match src with
    | .arr xs =>
      if isInt key then
        match valByKey env (.arr xs) key negIndex with
        | some v => .ok (vals.append v)
        | none => .ok vals
      else .ok vals
    | .obj kvs =>
      match valByKey env (.obj kvs) key false with
      | some v => .ok (vals.append v)
      | none => .ok vals
    | _ => .ok vals

/-- mach/run.go:188-193 and 215-219: the elements of a union, in order. -/
def unionByKeys (env : Env) (vals : GoSlice) (src : V) : List V → Res RErr GoSlice
  | [] => .ok vals
  | sel :: r =>
    if isNothing sel then unionByKeys env vals src r
    else do
      let vals ← valsByKey env vals src sel true
      unionByKeys env vals src r

/-- The children of a value in iteration order: the element loop and the map loop of mach/run.go:699-712
`valsWild`, and of one iteration of `stepping` (812-821). `loc` locates the map for the iteration order. -/
def children (ord : Ord) (loc : List Nat) : V → List V
  | .arr xs => xs
  | .obj kvs => permute (ord loc kvs.length) (kvs.map Prod.snd)
  | _ => []

/-- mach/run.go:525-531 `applySelection`; `k` numbers the elements of `src`. -/
def applySelection (f : Nat → V → GoSlice → Res RErr GoSlice) (k : Nat) (acc : GoSlice) :
    List V → Res RErr GoSlice
  | [] => .ok acc
  | el :: r => do
    let acc ← f k el acc
    applySelection f (k + 1) acc r

/-! ## Producers -/

/-- mach/run.go:809-823 `stepping`: the values sent, in order. -/
def stepping (ord : Ord) (k : Nat) : List V → List V
  | [] => []
  | v :: r => children ord [k] v ++ stepping ord (k + 1) r

mutual
/-- mach/run.go:837-857 `walkdown`: the values sent, in order. -/
def walkdown (ord : Ord) (loc : List Nat) : V → List V
  | .arr xs => .arr xs :: walkElems ord loc 0 xs
  | .obj kvs => .obj kvs :: (permute (ord loc kvs.length) (walkMembers ord loc 0 kvs)).flatten
  | v => [v]
/-- mach/run.go:847-853. -/
def walkElems (ord : Ord) (loc : List Nat) (i : Nat) : List V → List V
  | [] => []
  | v :: r => (if isStructure v then walkdown ord (i :: loc) v else []) ++ walkElems ord loc (i + 1) r
/-- mach/run.go:840-846: what is sent for each member. -/
def walkMembers (ord : Ord) (loc : List Nat) (i : Nat) : List (Bytes × V) → List (List V)
  | [] => []
  | (_, v) :: r =>
    (if isStructure v then walkdown ord (i :: loc) v else []) :: walkMembers ord loc (i + 1) r
end

/-- mach/run.go:828-835 `walker`: the values sent, in order. -/
def walker (ord : Ord) (k : Nat) : List V → List V
  | [] => []
  | v :: r => (if isStructure v then walkdown ord [k] v else []) ++ walker ord (k + 1) r

/-! ## Operators on values -/

/-- mach/run.go:617-628 `arith`. -/
def arith (env : Env) (a b : V) (intf : Int64 → Int64 → Int64) (floatf : F64 → F64 → F64) : V :=
  if isNothing a || isNothing b then .nothing
  else if !(isArith a && isArith b) then .nothing
  else if isFloat a || isFloat b then .float (floatf (cvf env a) (cvf env b))
  else .int (intf (cvi env a) (cvi env b))

/-- mach/run.go:632-651 `divide`. -/
def divide (env : Env) (a b : V) (intf : Int64 → Int64 → Int64) (floatf : F64 → F64 → F64) : V :=
  if isNothing a || isNothing b then .nothing
  else if !(isArith a && isArith b) then .nothing
  else if isFloat a || isFloat b then
    if (cvf env b).feq .zero then .nothing else .float (floatf (cvf env a) (cvf env b))
  else
    let bi := cvi env b
    if bi == 0 then .nothing else .int (intf (cvi env a) bi)

/-- mach/run.go:654-673 `relation`. -/
def relation (env : Env) (a b : V) (intf : Int64 → Int64 → Bool) (floatf : F64 → F64 → Bool)
    (stringf : Bytes → Bytes → Bool) : V :=
  if isNothing a || isNothing b then .nothing
  else if !(isSimple a && isSimple b) then .bool false
  else if isString a || isString b then
    if !(isString a && isString b) then .bool false
    else .bool (stringf (cvs a) (cvs b))
  else if isFloat a || isFloat b then .bool (floatf (cvf env a) (cvf env b))
  else .bool (intf (cvi env a) (cvi env b))

/-- mach/run.go:155-166, case `OpExp`. -/
def opExp (env : Env) (v : V) : V :=
  if isNothing v then .nothing
  else if isString v || isInt v then v
  else .int (cvi env v)

/-- mach/run.go:243-283, case `OpDot`: `val . sel`. -/
def opDot (env : Env) (val sel : V) : Res RErr V :=
  if isNothing sel || isNothing val then .ok .nothing
  else match sel with
  | .name key =>
    if key = b! "length" then
      match val with
      | .arr xs => .ok (.int (Int64.ofNat xs.length))
      | .obj kvs => .ok (.int (Int64.ofNat kvs.length))
      | .str s => .ok (.int (Int64.ofNat (runeCount s)))
      | _ => .ok .nothing
    else match val with
      | .obj kvs => .ok ((valByKey env (.obj kvs) sel false).getD .nothing)
      | _ => .ok .nothing
  | _ => .panic "interface conversion"

/-- mach/run.go:284-316, case `OpIndex`: `val [ index ]`. -/
def opIndex (env : Env) (val index : V) : V :=
  if isNothing val || isNothing index then .nothing
  else match val with
  | .arr xs =>
    let l := Int64.ofNat xs.length
    let sel := cvi env index
    let sel := if sel < 0 then sel + l else sel
    if sel < 0 || sel ≥ l then .nothing else (goIndex xs sel).getD .nothing
  | .obj kvs => (valByKey env (.obj kvs) index true).getD .nothing
  | _ => .nothing

/-- mach/run.go:317-332, case `OpSlice`. -/
def opSlice (a b : V) : Res RErr V :=
  if isNothing a || isNothing b then .ok .nothing
  else match b, a with
  | .slice s, .arr xs => do
    let r ← slicing xs s
    .ok (.arr r)
  | _, _ => .ok (.arr [])

/-- mach/run.go:333-344, case `OpOr`. -/
def opOr (env : Env) (a b : V) : V :=
  if isNothing a && isNothing b then .nothing
  else if !isNothing a && cvb env a then a
  else b

/-- mach/run.go:345-352, case `OpAnd`. -/
def opAnd (env : Env) (a b : V) : V := if isNothing a || !cvb env a then a else b

/-- mach/run.go:389-399, case `OpNeg`. -/
def opNeg (env : Env) (v : V) : V :=
  if isNothing v then .nothing
  else match v with
  | .float f => .float f.fneg
  | _ => .int (-(cvi env v))

/-- mach/run.go:433-459, case `OpMatch`. -/
def opMatch (env : Env) (a b : V) : Res RErr V :=
  if isNothing a || isNothing b then .ok .nothing
  else
    let go (re : Bytes) : Res RErr V := match a with
      | .str s => .ok (.bool (env.reMatch re s))
      | _ => .err (.matchLeft a)
    match b with
    | .re p => go p
    | .str s => if env.reValid s then go s else .err (.badRegexp s)
    | _ => .err (.matchRight b)

/-- mach/run.go:460-471, cases `OpIn` and `OpNin`. -/
def opIn (env : Env) (op : Op) (a b : V) : Res RErr V :=
  if isNothing a || isNothing b then .ok .nothing
  else match b with
  | .arr xs => .ok (.bool (searchJSON env xs a (op == .in_)))
  | _ => .err (.inRight op b)

/-- The operators that pop two operands `a`, `b` and push a result: mach/run.go:243-471.
`none` for all other operators. -/
def binop (env : Env) (op : Op) (a b : V) : Option (Res RErr V) :=
  match op with
  | .dot => some (opDot env a b)
  | .index => some (.ok (opIndex env a b))
  | .slice => some (opSlice a b)
  | .or => some (.ok (opOr env a b))
  | .and => some (.ok (opAnd env a b))
  -- run.go:353-388; `valsOK` is repeated at the top of `arith` and `divide`
  | .add => some (.ok (arith env a b (· + ·) F64.fadd))
  | .sub => some (.ok (arith env a b (· - ·) F64.fsub))
  | .mul => some (.ok (arith env a b (· * ·) F64.fmul))
  | .div => some (.ok (divide env a b (· / ·) F64.fdiv))
  | .mod => some (.ok (divide env a b (· % ·) F64.fmod))
  -- run.go:402-429
  | .eq => some (.ok (.bool (eqVal env a b)))
  | .ne => some (.ok (.bool (!eqVal env a b)))
  | .lt => some (.ok (relation env a b (· < ·) F64.flt bytesLt))
  | .le => some (.ok (relation env a b (· ≤ ·) F64.fle (fun s t => !bytesLt t s)))
  | .ge => some (.ok (relation env a b (· ≥ ·) (fun x y => y.fle x) (fun s t => !bytesLt s t)))
  | .gt => some (.ok (relation env a b (· > ·) (fun x y => y.flt x) (fun s t => bytesLt t s)))
  | .match_ => some (opMatch env a b)
  | .in_ => some (opIn env .in_ a b)
  | .nin => some (opIn env .nin a b)
  | _ => none

/-- The operators that pop one operand and push a result: mach/run.go:155-166, 389-401. -/
def unop (env : Env) (op : Op) (v : V) : Option V :=
  match op with
  | .exp => some (opExp env v)
  | .neg => some (opNeg env v)
  | .not => some (.bool (!cvb env v))
  | _ => none

/-! ## The machine -/

/-- mach/run.go:26-36 `machine`, without `prog`, `root` (constant during a run) and `tracing`
(always false).  `stack` is the live part `stack[0:sp]`, top first; `values` is the stack of input
channels, top first, each as the values still to come; `tick` numbers the map iterations. -/
structure MState where
  out : GoSlice
  dot : V
  stack : List V
  pc : Nat
  values : List (List V)
  tick : Nat
  deriving Inhabited

/-- mach/run.go:127: the initial state. -/
def MState.init (root : V) : MState :=
  { out := some [root], dot := .null, stack := [], pc := 0, values := [], tick := 0 }

/-- mach/run.go:72-78 `branch`; the state's `pc` has already been advanced. -/
def branch (size : Nat) (target : Int64) (s : MState) : Res RErr MState :=
  if target ≤ 0 || target > Int64.ofNat size then .panic "branch pc out of range"
  else .ok { s with pc := target.toInt.toNat }

/-- mach/run.go:534-546 `looptop`; `vals` are the values the producer will send, in order.
Receiving from the channel of a producer that sends nothing gives nil (545). -/
def looptop (size : Nat) (epc : Int64) (vals : List V) (s : MState) : Res RErr MState :=
  if s.out.elems.isEmpty then branch size epc s
  else .ok { s with out := some [], dot := vals.headD .null, values := vals.tail :: s.values }

/-- Push a value: mach/run.go:38-46. -/
def MState.push (s : MState) (v : V) : MState := { s with stack := v :: s.stack }

/-- mach/run.go:58-70 `popN`: the last `n` values pushed, oldest first, and the rest.
A negative count panics in `make`. -/
def popN (n : Int64) (stack : List V) : Res RErr (List V × List V) :=
  if Int64.ofNat stack.length < n then .panic "stack underflow"
  else if n < 0 then .panic "makeslice: len out of range"
  else .ok ((stack.take n.toInt.toNat).reverse, stack.drop n.toInt.toNat)

/-- Constant `i` of the program as pushed by `OpInt`, `OpReal`, `OpRE`, `OpBounds`, `OpString`
(`Value()`: paths/val.go:40,74,91; mach/program.go:85,99) and by `OpID` (a `NameVal` itself). -/
def PVal.value : PVal → V
  | .int n => .int n
  | .str s => .str s
  | .name s => .name s
  | .slice s => .slice s
  | .float f => .float f
  | .re p => .re p

/-- `p.value(ord.index())` pushed on the stack: mach/run.go:138, 152, 154. -/
def pushVal (prog : Program) (o : Order) (s : MState) : Res RErr MState :=
  match o.index with
  | none => .panic "index cannot be small int"
  | some i => match prog.vals[i.toNat]? with
    | some v => .ok (s.push v.value)
    | none => .panic "index out of range"

/-- mach/run.go:131-483: execution of one order `o` of operator `op`; `s.pc` has been advanced. -/
def exec (env : Env) (oracle : Oracle) (prog : Program) (root : V) (o : Order) (op : Op)
    (s : MState) : Res RErr MState :=
  let size := prog.orders.length
  let ord := oracle s.tick
  let s1 := { s with tick := s.tick + 1 }
  match op with
  -- leaf operations
  | .int => if o.isSmallInt then .ok (s.push (.int o.smallInt)) else pushVal prog o s
  | .bool => if !o.isSmallInt then .panic "require smallInt" else .ok (s.push (.bool (o.smallInt != 0)))
  | .null => .ok (s.push .null)
  | .real | .re | .bounds | .string => pushVal prog o s
  | .id => pushVal prog o s
  -- path operations on each member of the current output set
  | .wild => do
    let out ← applySelection (fun k el acc => .ok (acc.appendAll (children ord [k] el))) 0 (some []) s1.out.elems
    .ok { s1 with out := out }
  | .member | .select =>
    match s.stack with
    | [] => .panic "stack underflow"
    | sel :: st =>
      if isNothing sel then .ok { s with stack := st, out := some [] }
      else do
        let out ← applySelection (fun _ el acc => valsByKey env acc el sel (op == .select)) 0 (some []) s.out.elems
        .ok { s with stack := st, out := out }
  | .union => do
    let (sels, st) ← popN o.smallInt s.stack
    let out ← applySelection (fun _ el acc => unionByKeys env acc el sels) 0 (some []) s.out.elems
    .ok { s with stack := st, out := out }
  -- path operations on the value in dot
  | .filter | .nestFilter =>
    match s.stack with
    | [] => .panic "stack underflow"
    | v :: st =>
      if !isNothing v && cvb env v then .ok { s with stack := st, out := s.out.append s.dot }
      else .ok { s with stack := st }
  | .nestWild => .ok { s1 with out := s1.out.appendAll (children ord [0] s1.dot) }
  | .nestMember | .nestSelect =>
    match s.stack with
    | [] => .panic "stack underflow"
    | sel :: st =>
      if isNothing sel then .ok { s with stack := st }
      else do
        let out ← valsByKey env s.out s.dot sel (op == .nestSelect)
        .ok { s with stack := st, out := out }
  | .nestUnion => do
    let (sels, st) ← popN o.smallInt s.stack
    let out ← unionByKeys env s.out s.dot sels
    .ok { s with stack := st, out := out }
  -- iteration
  | .for_ => match o.pc with
    | none => .panic "pc must be small int"
    | some epc => looptop size epc (stepping ord 0 s1.out.elems) s1
  | .nest => match o.pc with
    | none => .panic "pc must be small int"
    | some epc => looptop size epc (walker ord 0 s1.out.elems) s1
  | .rep => match s.values with
    | [] => .panic "index out of range"
    | [] :: rest => .ok { s with values := rest, dot := .null }
    | (js :: more) :: rest => match o.pc with
      | none => .panic "pc must be small int"
      | some pc => branch size pc { s with values := more :: rest, dot := js }
  -- expression operators
  | .root => .ok (s.push root)
  | .current => .ok (s.push s.dot)
  | .array => do
    let (vs, st) ← popN o.smallInt s.stack
    .ok { s with stack := .arr vs :: st }
  | .call => do
    let (args, st) ← popN o.smallInt s.stack
    match args with
    | .name id :: rest => do
      let r ← call env ord id rest
      .ok { s1 with stack := r :: st }
    | [] => .panic "index out of range"
    | _ => .panic "interface conversion"
  | .exp | .neg | .not =>
    match s.stack with
    | [] => .panic "stack underflow"
    | v :: st => match unop env op v with
      | some r => .ok { s with stack := r :: st }
      | none => .stuck
  | .dot | .index | .slice | .or | .and | .add | .sub | .mul | .div | .mod | .eq | .ne | .lt | .le
  | .ge | .gt | .match_ | .in_ | .nin =>
    match s.stack with
    | b :: a :: st => match binop env op a b with
      | some r => do
        let v ← r
        .ok { s with stack := v :: st }
      | none => .stuck
    | _ => .panic "stack underflow"
  | .error => .err (.unimplemented op.toNat (s.pc - 1))

/-- mach/run.go:128-130: fetch, advance, execute. Only called with `s.pc` in range. An operator
number that names no operator takes the `default` case (481). -/
def step (env : Env) (oracle : Oracle) (prog : Program) (root : V) (o : Order) (s : MState) :
    Res RErr MState :=
  let s := { s with pc := s.pc + 1 }
  match Op.ofNat? o.opNum with
  | some op => exec env oracle prog root o op s
  | none => .err (.unimplemented o.opNum (s.pc - 1))

/-- mach/run.go:506-509: the final result. -/
def MState.result (s : MState) : GoSlice := match s.out with
  | none => some []
  | some vs => some vs

/-- mach/run.go:126-510 `Run`, the loop from a given state.  `none` is non-termination. -/
def run (env : Env) (oracle : Oracle) (prog : Program) (root : V) (s : MState) :
    Option (Res RErr GoSlice) :=
  match prog.orders[s.pc]? with
  | none => some (.ok s.result)
  | some o =>
    match step env oracle prog root o s with
    | .ok s' => run env oracle prog root s'
    | .err e => some (.err e)
    | .panic m => some (.panic m)
    | .stuck => some .stuck
partial_fixpoint

/-- The same loop with a bound on the number of orders executed, for calculation. -/
def runFuel (env : Env) (oracle : Oracle) (prog : Program) (root : V) :
    Nat → MState → Option (Res RErr GoSlice)
  | 0, _ => none
  | f + 1, s =>
    match prog.orders[s.pc]? with
    | none => some (.ok s.result)
    | some o =>
      match step env oracle prog root o s with
      | .ok s' => runFuel env oracle prog root f s'
      | .err e => some (.err e)
      | .panic m => some (.panic m)
      | .stuck => some .stuck

end JP
