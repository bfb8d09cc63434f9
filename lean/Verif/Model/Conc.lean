import Verif.Model.Api
/-!
mach/run.go once more, with memory, goroutines and channels made explicit.

`Verif/Model/Machine.lean` treats arrays and maps as values and a producer goroutine as the list of
values it has yet to send.  Here

* arrays and maps live in a shared heap, slices are (array, offset, length, capacity), `append` writes
  in place when the capacity allows and otherwise allocates and copies, and the expression stack and
  the output set are such slices;
* a compiled program is an object of the heap like any other;
* an evaluation is a sequence of single memory actions (`Prog`), its producers are processes of
  their own, and they meet on unbuffered channels;
* any number of evaluations run at the same time on one heap, and a step of the whole is one action of
  one goroutine of one evaluation (`Step`).  Nothing in the rules stops an evaluation from writing to
  an array that it does not own: that this never happens is a theorem.

`Verif/Proof/Conc/` relates this to `Machine.lean`.

Simplified: memory is sequentially consistent (the theorems show that no object is written while
another goroutine can read it); functions that only inspect their operands (mach/json.go, mach/fns.go,
`arith`, `relation` and so on) read them in one action (`Prog.load`); the slice of channels
`m.values`, private to the machine, is a list; a map is read in one action, in the order the oracle gives.
-/
namespace JP.Conc

/-! ## Memory -/

/-- The address of an object: who allocated it and a serial number.  Owner 0 is the caller of the
package; evaluation `e` owns what it allocates. -/
structure Addr where
  owner : Nat
  idx : Nat
  deriving DecidableEq, Repr, Inhabited

/-- A Go slice that is not nil: `len` elements of the array `arr` from `off`; `cap` counts from `off`. -/
structure SRef where
  arr : Addr
  off : Nat
  len : Nat
  cap : Nat
  deriving DecidableEq, Repr, Inhabited

/-- A Go value of type `JSON` (mach/json.go:15) in memory: arrays and maps are references. -/
inductive HV where
  /-- Anything but an array or a map. -/
  | atom (v : V)
  | arr (r : SRef)
  | obj (a : Addr)
  deriving Inhabited

/-- What an address holds. -/
inductive Obj where
  /-- The array behind slices. -/
  | cells (cs : List HV)
  /-- A `map[string]JSON`. -/
  | members (m : List (Bytes × HV))
  /-- A compiled program (mach/program.go:109-112). -/
  | prog (p : Program)

/-- The objects allocated by each owner, oldest first. -/
abbrev Heap := Nat → List Obj

def Heap.get (h : Heap) (a : Addr) : Option Obj := (h a.owner)[a.idx]?

/-- Element `i` of an array. -/
def Heap.cell (h : Heap) (a : Addr) (i : Nat) : Option HV :=
  match h.get a with
  | some (.cells cs) => cs[i]?
  | _ => none

/-- The heap with another object at address `a`. -/
def Heap.put (h : Heap) (a : Addr) (o : Obj) : Heap :=
  fun w => if w = a.owner then (h w).set a.idx o else h w

/-- The heap after an assignment to element `i` of an array. -/
def Heap.setCell (h : Heap) (a : Addr) (i : Nat) (v : HV) : Heap :=
  match h.get a with
  | some (.cells cs) => h.put a (.cells (cs.set i v))
  | _ => h

/-- The heap after an allocation by `e`. -/
def Heap.alloc (h : Heap) (e : Nat) (o : Obj) : Heap := fun w => if w = e then h w ++ [o] else h w

/-- The address that the next allocation by `e` yields. -/
def Heap.fresh (h : Heap) (e : Nat) : Addr := ⟨e, (h e).length⟩

mutual
/-- The value in memory stands for the value `v` of `Machine.lean`; every object it consists of is at
an address that satisfies `F`. -/
inductive Rep (F : Addr → Prop) (h : Heap) : HV → V → Prop where
  | atom (v : V) (hv : isStructure v = false) : Rep F h (.atom v) v
  | arr (r : SRef) (cs : List HV) (vs : List V) (hf : F r.arr) (hg : h.get r.arr = some (.cells cs))
      (hl : r.off + r.len ≤ cs.length) (he : RepL F h ((cs.drop r.off).take r.len) vs) :
      Rep F h (.arr r) (.arr vs)
  | obj (a : Addr) (m : List (Bytes × HV)) (kvs : List (Bytes × V)) (hf : F a)
      (hg : h.get a = some (.members m)) (he : RepM F h m kvs) : Rep F h (.obj a) (.obj kvs)
/-- Element by element. -/
inductive RepL (F : Addr → Prop) (h : Heap) : List HV → List V → Prop where
  | nil : RepL F h [] []
  | cons (x : HV) (v : V) (xs : List HV) (vs : List V) (h1 : Rep F h x v) (h2 : RepL F h xs vs) :
      RepL F h (x :: xs) (v :: vs)
/-- Member by member. -/
inductive RepM (F : Addr → Prop) (h : Heap) : List (Bytes × HV) → List (Bytes × V) → Prop where
  | nil : RepM F h [] []
  | cons (k : Bytes) (x : HV) (v : V) (xs : List (Bytes × HV)) (vs : List (Bytes × V))
      (h1 : Rep F h x v) (h2 : RepM F h xs vs) : RepM F h ((k, x) :: xs) ((k, v) :: vs)
end

/-! ## Actions on memory -/

/-- A piece of code, action by action. -/
inductive Prog (α : Type) where
  | ret (a : α)
  /-- Read an element of an array. -/
  | read (a : Addr) (i : Nat) (k : HV → Prog α)
  /-- Assign to an element of an array. -/
  | write (a : Addr) (i : Nat) (v : HV) (k : Prog α)
  /-- Allocate an array with these elements. -/
  | make (cs : List HV) (k : Addr → Prog α)
  /-- Look a key up in a map. -/
  | find (a : Addr) (key : Bytes) (k : Option HV → Prog α)
  /-- All members of a map. -/
  | range (a : Addr) (k : List (Bytes × HV) → Prog α)
  /-- Inspect a value, down to the last element if need be. -/
  | load (x : HV) (k : V → Prog α)
  /-- `p.orders[pc]`, or nothing at the end of the program. -/
  | order (a : Addr) (pc : Nat) (k : Option Order → Prog α)
  /-- `p.vals[i]` (mach/program.go:121-123); nothing if out of range. -/
  | const (a : Addr) (i : Nat) (k : Option PVal → Prog α)
  /-- `len(p.orders)`. -/
  | size (a : Addr) (k : Nat → Prog α)

/-- First one, then the other. -/
def Prog.bind {α β : Type} (p : Prog α) (f : α → Prog β) : Prog β :=
  match p with
  | .ret a => f a
  | .read a i k => .read a i fun v => (k v).bind f
  | .write a i v k => .write a i v (k.bind f)
  | .make cs k => .make cs fun a => (k a).bind f
  | .find a key k => .find a key fun v => (k v).bind f
  | .range a k => .range a fun m => (k m).bind f
  | .load x k => .load x fun v => (k v).bind f
  | .order a pc k => .order a pc fun o => (k o).bind f
  | .const a i k => .const a i fun v => (k v).bind f
  | .size a k => .size a fun n => (k n).bind f

/-- Code that may also return an error or panic. -/
def PR (α : Type) := Prog (Res RErr α)

def PR.bind {α β : Type} (p : PR α) (f : α → PR β) : PR β :=
  Prog.bind p fun r => match r with
    | .ok a => f a
    | .err e => .ret (.err e)
    | .panic m => .ret (.panic m)
    | .stuck => .ret .stuck

def PR.ok {α : Type} (a : α) : PR α := Prog.ret (.ok a)
def PR.res {α : Type} (r : Res RErr α) : PR α := Prog.ret r
def PR.panic {α : Type} (m : String) : PR α := Prog.ret (.panic m)

instance : Monad PR where
  pure := PR.ok
  bind := PR.bind

def PR.read (a : Addr) (i : Nat) : PR HV := Prog.read a i PR.ok
def PR.write (a : Addr) (i : Nat) (v : HV) : PR Unit := Prog.write a i v (PR.ok ())
def PR.make (cs : List HV) : PR Addr := Prog.make cs PR.ok
def PR.find (a : Addr) (key : Bytes) : PR (Option HV) := Prog.find a key PR.ok
def PR.range (a : Addr) : PR (List (Bytes × HV)) := Prog.range a PR.ok
def PR.load (x : HV) : PR V := Prog.load x PR.ok
def PR.order (a : Addr) (pc : Nat) : PR (Option Order) := Prog.order a pc PR.ok
def PR.const (a : Addr) (i : Nat) : PR (Option PVal) := Prog.const a i PR.ok
def PR.size (a : Addr) : PR Nat := Prog.size a PR.ok

/-- Member `key` of a map. -/
def findMember (m : List (Bytes × HV)) (key : Bytes) : Option HV :=
  match m with
  | [] => none
  | (k, v) :: r => if k = key then some v else findMember r key

/-- One action by evaluation `e`.  There is no rule for an access that Go's bounds and type checks
would have stopped. -/
inductive Act {α : Type} (e : Nat) : Heap → Prog α → Heap → Prog α → Prop where
  | read (h : Heap) (a : Addr) (i : Nat) (k : HV → Prog α) (v : HV) (hc : h.cell a i = some v) :
      Act e h (.read a i k) h (k v)
  | write (h : Heap) (a : Addr) (i : Nat) (v : HV) (k : Prog α) (hc : (h.cell a i).isSome) :
      Act e h (.write a i v k) (h.setCell a i v) k
  | make (h : Heap) (cs : List HV) (k : Addr → Prog α) :
      Act e h (.make cs k) (h.alloc e (.cells cs)) (k (h.fresh e))
  | find (h : Heap) (a : Addr) (key : Bytes) (k : Option HV → Prog α) (m : List (Bytes × HV))
      (hg : h.get a = some (.members m)) : Act e h (.find a key k) h (k (findMember m key))
  | range (h : Heap) (a : Addr) (k : List (Bytes × HV) → Prog α) (m : List (Bytes × HV))
      (hg : h.get a = some (.members m)) : Act e h (.range a k) h (k m)
  | load (h : Heap) (x : HV) (k : V → Prog α) (v : V) (hr : Rep (fun _ => True) h x v) :
      Act e h (.load x k) h (k v)
  | order (h : Heap) (a : Addr) (pc : Nat) (k : Option Order → Prog α) (p : Program)
      (hg : h.get a = some (.prog p)) : Act e h (.order a pc k) h (k p.orders[pc]?)
  | const (h : Heap) (a : Addr) (i : Nat) (k : Option PVal → Prog α) (p : Program)
      (hg : h.get a = some (.prog p)) : Act e h (.const a i k) h (k p.vals[i]?)
  | size (h : Heap) (a : Addr) (k : Nat → Prog α) (p : Program)
      (hg : h.get a = some (.prog p)) : Act e h (.size a k) h (k p.orders.length)

/-! ## Slices -/

/-- `nil` as an element. -/
def HV.null : HV := .atom .null

/-- Elements `i`, `i+1`, … (`n` of them) of a slice. -/
def readFrom (r : SRef) : (n i : Nat) → PR (List HV)
  | 0, _ => .ok []
  | n + 1, i => do
    let v ← PR.read r.arr (r.off + i)
    let vs ← readFrom r n (i + 1)
    .ok (v :: vs)

/-- Elements `i`, … of a slice set to nil: mach/run.go:66-68. -/
def clearFrom (r : SRef) : (n i : Nat) → PR Unit
  | 0, _ => .ok ()
  | n + 1, i => do
    PR.write r.arr (r.off + i) .null
    clearFrom r n (i + 1)

/-- `len(s)` for a slice that may be nil. -/
def lenOf (o : Option SRef) : Nat := match o with | none => 0 | some r => r.len

/-- Go's `append` of one element.  When the capacity is used up, `grow` says how much room the new
array has to spare. -/
def append (grow : Nat → Nat) (o : Option SRef) (v : HV) : PR SRef :=
  match o with
  | none => do
    let a ← PR.make (v :: List.replicate (grow 0) .null)
    .ok ⟨a, 0, 1, 1 + grow 0⟩
  | some r =>
    if r.len < r.cap then do
      PR.write r.arr (r.off + r.len) v
      .ok { r with len := r.len + 1 }
    else do
      let old ← readFrom r r.len 0
      let a ← PR.make (old ++ v :: List.replicate (grow r.len) .null)
      .ok ⟨a, 0, r.len + 1, r.len + 1 + grow r.len⟩

/-- `[]JSON{}`: a slice of no elements. -/
def emptySlice : PR SRef := do
  let a ← PR.make []
  .ok ⟨a, 0, 0, 0⟩

/-! ## The machine -/

/-- mach/run.go:26-36 `machine`, without the constant fields.  `values` are the channels, top first,
each by the number of its producer; `tick` numbers the map iterations. -/
structure HState where
  out : Option SRef
  dot : HV
  stack : Option SRef
  sp : Nat
  pc : Nat
  values : List Nat
  tick : Nat
  deriving Inhabited

/-- mach/run.go:38-46. -/
def push (grow : Nat → Nat) (s : HState) (v : HV) : PR HState :=
  if s.sp ≥ lenOf s.stack then do
    let r ← append grow s.stack v
    .ok { s with stack := some r, sp := r.len }
  else match s.stack with
    | some r => do
      PR.write r.arr (r.off + s.sp) v
      .ok { s with sp := s.sp + 1 }
    | none => .panic "index out of range"

/-- mach/run.go:48-56. -/
def pop (s : HState) : PR (HV × HState) :=
  if s.sp = 0 then .panic "stack underflow"
  else match s.stack with
    | some r => do
      let v ← PR.read r.arr (r.off + (s.sp - 1))
      PR.write r.arr (r.off + (s.sp - 1)) .null
      .ok (v, { s with sp := s.sp - 1 })
    | none => .panic "index out of range"

/-- mach/run.go:58-70; `make` and `copy` are one action. -/
def popN (s : HState) (n : Int64) : PR (SRef × HState) :=
  if Int64.ofNat s.sp < n then .panic "stack underflow"
  else if n < 0 then .panic "makeslice: len out of range"
  else
    let k := n.toInt.toNat
    match s.stack with
    | some r => do
      let vs ← readFrom r k (s.sp - k)
      let a ← PR.make vs
      clearFrom r k (s.sp - k)
      .ok (⟨a, 0, k, k⟩, { s with sp := s.sp - k })
    | none => do
      let a ← PR.make []
      .ok (⟨a, 0, 0, 0⟩, s)

/-- What an order leaves to do. -/
inductive Ctl where
  /-- Go on with the next order. -/
  | next (s : HState)
  /-- mach/run.go:541-543: make a channel and start the producer (`walker` or `stepping`) on the
  output set; then reset the output set. -/
  | start (walk : Bool) (s : HState)
  /-- mach/run.go:545: receive the first value. -/
  | await (s : HState)
  /-- mach/run.go:227: receive the next value; the order has the branch target. -/
  | rep (o : Order) (s : HState)
  /-- mach/run.go:506-509: return the output set. -/
  | halt (r : SRef)

/-- mach/run.go:72-78. -/
def branch (prog : Addr) (target : Int64) (s : HState) : PR Ctl := do
  let size ← PR.size prog
  if target ≤ 0 || target > Int64.ofNat size then .panic "branch pc out of range"
  else .ok (.next { s with pc := target.toInt.toNat })

/-! ### Selection -/

/-- Appends, one at a time, elements `i`, … of a slice: the loop of mach/run.go:701-704. -/
def appendElems (grow : Nat → Nat) (r : SRef) : (n i : Nat) → Option SRef → PR (Option SRef)
  | 0, _, acc => .ok acc
  | n + 1, i, acc => do
    let v ← PR.read r.arr (r.off + i)
    let acc ← append grow acc v
    appendElems grow r n (i + 1) (some acc)

/-- Appends the values, one at a time: the loop of mach/run.go:706-708. -/
def appendVals (grow : Nat → Nat) : List HV → Option SRef → PR (Option SRef)
  | [], acc => .ok acc
  | v :: vs, acc => do
    let acc ← append grow acc v
    appendVals grow vs (some acc)

/-- mach/run.go:699-712 `valsWild`. -/
def valsWild (grow : Nat → Nat) (ord : Ord) (loc : List Nat) (vals : Option SRef) (src : HV) :
    PR (Option SRef) :=
  match src with
  | .arr r => appendElems grow r r.len 0 vals
  | .obj a => do
    let m ← PR.range a
    appendVals grow (permute (ord loc m.length) (m.map Prod.snd)) vals
  | .atom _ => .ok vals

/-- mach/run.go:726-732: the loops of a slice, with the bounds check of `src[i]`. -/
def sliceLoop (grow : Nat → Nat) (up : Bool) (r : SRef) (stop stride : Int64) :
    (fuel : Nat) → (i : Int64) → Option SRef → PR (Option SRef)
  | 0, _, _ => PR.res .stuck
  | f + 1, i, acc =>
    if (if up then i < stop else i > stop) then
      if i < 0 ∨ r.len ≤ i.toInt.toNat then .panic "index out of range"
      else do
        let v ← PR.read r.arr (r.off + i.toInt.toNat)
        let acc ← append grow acc v
        sliceLoop grow up r stop stride f (i + stride) (some acc)
    else .ok acc

/-- mach/run.go:724-736. -/
def sliceVals (grow : Nat → Nat) (r : SRef) (slice : Slice) (vals : Option SRef) : PR (Option SRef) :=
  let (start, stop, stride) := sliceEval slice (Int64.ofNat r.len)
  if stride > 0 then sliceLoop grow true r stop stride (r.len + 2) start vals
  else if stride < 0 then sliceLoop grow false r stop stride (r.len + 2) start vals
  else .ok vals

/-- mach/run.go:676-696 `slicing`; with stride 1 the result shares the array of `src`. -/
def slicing (grow : Nat → Nat) (r : SRef) (slice : Slice) : PR SRef :=
  let (start, stop, stride) := sliceEval slice (Int64.ofNat r.len)
  if stride == 1 then
    if start ≤ stop then
      .ok { arr := r.arr, off := r.off + start.toInt.toNat, len := stop.toInt.toNat - start.toInt.toNat,
            cap := r.cap - start.toInt.toNat }
    else .panic "slice bounds out of range"
  else do
    let vals ← emptySlice
    let vals ← sliceVals grow r slice (some vals)
    match vals with
    | some r => .ok r
    | none => PR.res .stuck

/-- mach/run.go:775-806 `valByKey`. -/
def valByKey (env : Env) (src : HV) (key : V) (negIndex : Bool) : PR (Option HV) :=
  match src with
  | .obj a => PR.find a (mapKey env key)
  | .arr r => do
    let l := Int64.ofNat r.len
    let n := cvi env key
    let n := if negIndex && n < 0 then n + l else n
    if n ≥ 0 && n < l then do
      let v ← PR.read r.arr (r.off + n.toInt.toNat)
      .ok (some v)
    else .ok none
  | .atom .null => .ok (some .null)
  | .atom _ => .ok none

/-- `vals = append(vals, v)` if there is a `v`. -/
def appendOpt (grow : Nat → Nat) (vals : Option SRef) : Option HV → PR (Option SRef)
  | some v => do
    let r ← append grow vals v
    .ok (some r)
  | none => .ok vals

/-- mach/run.go:716-757 `valsByKey`. -/
def valsByKey (env : Env) (grow : Nat → Nat) (vals : Option SRef) (src : HV) (key : V)
    (negIndex : Bool) : PR (Option SRef) :=
  match key with
  | .slice s =>
    match src with
    | .arr r => sliceVals grow r s vals
    | _ => .ok none
  | _ =>
    match src with
    | .arr r =>
      if isInt key then do
        let v ← valByKey env (.arr r) key negIndex
        appendOpt grow vals v
      else .ok vals
    | .obj a => do
      let v ← valByKey env (.obj a) key false
      appendOpt grow vals v
    | .atom _ => .ok vals

/-- mach/run.go:188-193 and 215-219. -/
def unionByKeys (env : Env) (grow : Nat → Nat) (vals : Option SRef) (src : HV) :
    List HV → PR (Option SRef)
  | [] => .ok vals
  | sel :: r => do
    let v ← PR.load sel
    if isNothing v then unionByKeys env grow vals src r
    else do
      let vals ← valsByKey env grow vals src v true
      unionByKeys env grow vals src r

/-- mach/run.go:525-531 `applySelection`: the loop over elements `i`, … of the source. -/
def applyLoop (f : Nat → HV → Option SRef → PR (Option SRef)) (src : SRef) :
    (n i : Nat) → Option SRef → PR (Option SRef)
  | 0, _, acc => .ok acc
  | n + 1, i, acc => do
    let el ← PR.read src.arr (src.off + i)
    let acc ← f i el acc
    applyLoop f src n (i + 1) acc

/-- mach/run.go:525-531 `applySelection`. -/
def applySelection (f : Nat → HV → Option SRef → PR (Option SRef)) (src : Option SRef) :
    PR (Option SRef) := do
  let vals ← emptySlice
  match src with
  | none => .ok (some vals)
  | some r => applyLoop f r r.len 0 (some vals)

/-! ### Operators -/

/-- A value that is neither an array nor a map. -/
def HV.isAtom : HV → Bool
  | .atom _ => true
  | _ => false

/-- Inspect the arguments of a function. -/
def loadAll : List HV → PR (List V)
  | [] => .ok []
  | x :: xs => do
    let v ← PR.load x
    let vs ← loadAll xs
    .ok (v :: vs)

/-- The result of an operator or function in memory: the functions `keys` and `tokenize` return a new
array of strings (mach/fns.go:126-139, 247-265), all others something simple. -/
def store (v : V) : PR HV :=
  match v with
  | .arr xs => do
    let a ← PR.make (xs.map .atom)
    .ok (.arr ⟨a, 0, xs.length, xs.length⟩)
  | v => .ok (.atom v)

/-- mach/run.go:243-283, case `OpDot`. -/
def opDot (env : Env) (val : HV) (sel : V) (valv : V) : PR HV :=
  if isNothing sel || isNothing valv then .ok (.atom .nothing)
  else match sel with
  | .name key =>
    if key = b! "length" then
      match val with
      | .arr r => .ok (.atom (.int (Int64.ofNat r.len)))
      | .obj a => do
        let m ← PR.range a
        .ok (.atom (.int (Int64.ofNat m.length)))
      | .atom (.str s) => .ok (.atom (.int (Int64.ofNat (runeCount s))))
      | .atom _ => .ok (.atom .nothing)
    else match val with
      | .obj a => do
        let v ← valByKey env (.obj a) sel false
        .ok (v.getD (.atom .nothing))
      | _ => .ok (.atom .nothing)
  | _ => .panic "interface conversion"

/-- mach/run.go:284-316, case `OpIndex`. -/
def opIndex (env : Env) (val : HV) (valv index : V) : PR HV :=
  if isNothing valv || isNothing index then .ok (.atom .nothing)
  else match val with
  | .arr r =>
    let l := Int64.ofNat r.len
    let sel := cvi env index
    let sel := if sel < 0 then sel + l else sel
    if sel < 0 || sel ≥ l then .ok (.atom .nothing)
    else PR.read r.arr (r.off + sel.toInt.toNat)
  | .obj a => do
    let v ← valByKey env (.obj a) index true
    .ok (v.getD (.atom .nothing))
  | .atom _ => .ok (.atom .nothing)

/-- mach/run.go:317-332, case `OpSlice`. -/
def opSlice (grow : Nat → Nat) (a : HV) (av b : V) : PR HV :=
  if isNothing av || isNothing b then .ok (.atom .nothing)
  else match b, a with
  | .slice s, .arr r => do
    let r ← slicing grow r s
    .ok (.arr r)
  | _, _ => do
    let r ← emptySlice
    .ok (.arr r)

/-- The operators that pop two operands: mach/run.go:243-471. -/
def binop (env : Env) (grow : Nat → Nat) (op : Op) (a b : HV) : PR HV := do
  let av ← PR.load a
  let bv ← PR.load b
  match op with
  | .dot => opDot env a bv av
  | .index => opIndex env a av bv
  | .slice => opSlice grow a av bv
  | .or =>
    if isNothing av && isNothing bv then .ok (.atom .nothing)
    else if !isNothing av && cvb env av then .ok a
    else .ok b
  | .and => if isNothing av || !cvb env av then .ok a else .ok b
  | op => match JP.binop env op av bv with
    | some r => do
      let v ← PR.res r
      .ok (.atom v)
    | none => PR.res .stuck

/-! ### One order -/

/-- Push a constant of the program: mach/run.go:138, 152, 154. -/
def pushVal (grow : Nat → Nat) (prog : Addr) (o : Order) (s : HState) : PR Ctl :=
  match o.index with
  | none => .panic "index cannot be small int"
  | some i => do
    match ← PR.const prog i.toNat with
    | some v => do
      let s ← push grow s (.atom v.value)
      .ok (.next s)
    | none => .panic "index out of range"

/-- Push and go on. -/
def pushNext (grow : Nat → Nat) (s : HState) (v : HV) : PR Ctl := do
  let s ← push grow s v
  .ok (.next s)

/-- mach/run.go:534-540 `looptop`, up to the start of the producer. -/
def looptop (prog : Addr) (walk : Bool) (o : Order) (s : HState) : PR Ctl :=
  match o.pc with
  | none => .panic "pc must be small int"
  | some epc => if lenOf s.out = 0 then branch prog epc s else .ok (.start walk s)

/-- mach/run.go:131-483: one order `o` of operator `op`; `s.pc` has been advanced. -/
def exec (env : Env) (grow : Nat → Nat) (oracle : Oracle) (prog : Addr) (root : HV) (o : Order)
    (op : Op) (s : HState) : PR Ctl :=
  let ord := oracle s.tick
  let s1 := { s with tick := s.tick + 1 }
  match op with
  | .int => if o.isSmallInt then pushNext grow s (.atom (.int o.smallInt)) else pushVal grow prog o s
  | .bool => if !o.isSmallInt then .panic "require smallInt"
    else pushNext grow s (.atom (.bool (o.smallInt != 0)))
  | .null => pushNext grow s .null
  | .real | .re | .bounds | .string => pushVal grow prog o s
  | .id => pushVal grow prog o s
  | .wild => do
    let out ← applySelection (fun k el acc => valsWild grow ord [k] acc el) s1.out
    .ok (.next { s1 with out := out })
  | .member | .select => do
    let (x, s) ← pop s
    let sel ← PR.load x
    if isNothing sel then do
      let r ← emptySlice
      .ok (.next { s with out := some r })
    else do
      let out ← applySelection (fun _ el acc => valsByKey env grow acc el sel (op == .select)) s.out
      .ok (.next { s with out := out })
  | .union => do
    let (a, s) ← popN s o.smallInt
    let sels ← readFrom a a.len 0
    let out ← applySelection (fun _ el acc => unionByKeys env grow acc el sels) s.out
    .ok (.next { s with out := out })
  | .filter | .nestFilter => do
    let (x, s) ← pop s
    let v ← PR.load x
    if !isNothing v && cvb env v then do
      let r ← append grow s.out s.dot
      .ok (.next { s with out := some r })
    else .ok (.next s)
  | .nestWild => do
    let out ← valsWild grow ord [0] s1.out s1.dot
    .ok (.next { s1 with out := out })
  | .nestMember | .nestSelect => do
    let (x, s) ← pop s
    let sel ← PR.load x
    if isNothing sel then .ok (.next s)
    else do
      let out ← valsByKey env grow s.out s.dot sel (op == .nestSelect)
      .ok (.next { s with out := out })
  | .nestUnion => do
    let (a, s) ← popN s o.smallInt
    let sels ← readFrom a a.len 0
    let out ← unionByKeys env grow s.out s.dot sels
    .ok (.next { s with out := out })
  | .for_ => looptop prog false o s1
  | .nest => looptop prog true o s1
  | .rep => match s.values with
    | [] => .panic "index out of range"
    | _ :: _ => .ok (.rep o s)
  | .root => pushNext grow s root
  | .current => pushNext grow s s.dot
  | .array => do
    let (a, s) ← popN s o.smallInt
    pushNext grow s (.arr a)
  | .call => do
    let (a, s) ← popN s1 o.smallInt
    let xs ← readFrom a a.len 0
    match xs with
    | [] => .panic "index out of range"
    | x :: rest => do
      let id ← PR.load x
      match id with
      | .name id => do
        let args ← loadAll rest
        let v ← PR.res (call env ord id args)
        let r ← store v
        pushNext grow s r
      | _ => .panic "interface conversion"
  | .exp | .neg | .not => do
    let (x, s) ← pop s
    let v ← PR.load x
    match unop env op v with
    | some r => pushNext grow s (.atom r)
    | none => PR.res .stuck
  | .dot | .index | .slice | .or | .and | .add | .sub | .mul | .div | .mod | .eq | .ne | .lt | .le
  | .ge | .gt | .match_ | .in_ | .nin => do
    let (b, s) ← pop s
    let (a, s) ← pop s
    let r ← binop env grow op a b
    pushNext grow s r
  | .error => PR.res (.err (.unimplemented op.toNat (s.pc - 1)))

/-- mach/run.go:128-130 and 506-509: fetch an order and execute it, or return. -/
def order (env : Env) (grow : Nat → Nat) (oracle : Oracle) (prog : Addr) (root : HV) (s : HState) :
    PR Ctl := do
  match ← PR.order prog s.pc with
  | none => match s.out with
    | none => do
      let r ← emptySlice
      .ok (.halt r)
    | some r => .ok (.halt r)
  | some o =>
    let s := { s with pc := s.pc + 1 }
    match Op.ofNat? o.opNum with
    | some op => exec env grow oracle prog root o op s
    | none => PR.res (.err (.unimplemented o.opNum (s.pc - 1)))

/-- mach/run.go:127: the machine is made. -/
def begin (root : HV) : PR Ctl := do
  let a ← PR.make [root]
  .ok (.next { out := some ⟨a, 0, 1, 1⟩, dot := .null, stack := none, sp := 0, pc := 0, values := [],
               tick := 0 })

/-! ## Producers -/

/-- The loops that a producer is in, innermost first, and where each has got to. -/
inductive Frame where
  /-- mach/run.go:811 and 830: `for _, v := range vals`, from element `i`. -/
  | each (walk : Bool) (r : SRef) (i : Nat)
  /-- mach/run.go:814-816: send the elements from `i`. -/
  | elems (r : SRef) (i : Nat)
  /-- mach/run.go:818-820: send these members. -/
  | members (vs : List HV)
  /-- mach/run.go:838: send the structure, then go down. -/
  | walk (v : HV) (loc : List Nat)
  /-- mach/run.go:839-856: go down. -/
  | down (v : HV) (loc : List Nat)
  /-- mach/run.go:848-853: from element `i`. -/
  | downElems (r : SRef) (i : Nat) (loc : List Nat)
  /-- mach/run.go:841-846: these members, each with its number in the map. -/
  | downMembers (vs : List (Nat × HV)) (loc : List Nat)

/-- A producer goroutine: its loops, the value that it is trying to send if any, and whether it has
closed its channel and returned.  `ord` is the order of its map iterations. -/
structure Producer where
  ord : Ord
  frames : List Frame
  pending : Option HV
  closed : Bool

/-- A producer just started on the output set: mach/run.go:543. -/
def Producer.start (ord : Ord) (walk : Bool) (r : SRef) : Producer := ⟨ord, [.each walk r 0], none, false⟩

/-- mach/json.go `IsStructure`. -/
def HV.isStructure : HV → Bool
  | .atom _ => false
  | _ => true

/-- One step of a producer that is not waiting to send: read an element or a map, go on to the next
iteration, or offer a value. -/
inductive Producer.Step (h : Heap) : Producer → Producer → Prop where
  | close (o : Ord) : Step h ⟨o, [], none, false⟩ ⟨o, [], none, true⟩
  -- stepping
  | eachArr (o : Ord) (r : SRef) (i : Nat) (fs : List Frame) (r' : SRef) (hi : i < r.len)
      (hc : h.cell r.arr (r.off + i) = some (.arr r')) :
      Step h ⟨o, .each false r i :: fs, none, false⟩
        ⟨o, .elems r' 0 :: .each false r (i + 1) :: fs, none, false⟩
  | eachObj (o : Ord) (r : SRef) (i : Nat) (fs : List Frame) (a : Addr) (m : List (Bytes × HV))
      (hi : i < r.len) (hc : h.cell r.arr (r.off + i) = some (.obj a))
      (hg : h.get a = some (.members m)) :
      Step h ⟨o, .each false r i :: fs, none, false⟩
        ⟨o, .members (permute (o [i] m.length) (m.map Prod.snd)) :: .each false r (i + 1) :: fs, none,
          false⟩
  | eachAtom (o : Ord) (r : SRef) (i : Nat) (fs : List Frame) (v : V) (hi : i < r.len)
      (hc : h.cell r.arr (r.off + i) = some (.atom v)) :
      Step h ⟨o, .each false r i :: fs, none, false⟩ ⟨o, .each false r (i + 1) :: fs, none, false⟩
  | eachEnd (o : Ord) (w : Bool) (r : SRef) (i : Nat) (fs : List Frame) (hi : r.len ≤ i) :
      Step h ⟨o, .each w r i :: fs, none, false⟩ ⟨o, fs, none, false⟩
  | elem (o : Ord) (r : SRef) (i : Nat) (fs : List Frame) (v : HV) (hi : i < r.len)
      (hc : h.cell r.arr (r.off + i) = some v) :
      Step h ⟨o, .elems r i :: fs, none, false⟩ ⟨o, .elems r (i + 1) :: fs, some v, false⟩
  | elemEnd (o : Ord) (r : SRef) (i : Nat) (fs : List Frame) (hi : r.len ≤ i) :
      Step h ⟨o, .elems r i :: fs, none, false⟩ ⟨o, fs, none, false⟩
  | member (o : Ord) (v : HV) (vs : List HV) (fs : List Frame) :
      Step h ⟨o, .members (v :: vs) :: fs, none, false⟩ ⟨o, .members vs :: fs, some v, false⟩
  | memberEnd (o : Ord) (fs : List Frame) :
      Step h ⟨o, .members [] :: fs, none, false⟩ ⟨o, fs, none, false⟩
  -- walker
  | walkEach (o : Ord) (r : SRef) (i : Nat) (fs : List Frame) (v : HV) (hi : i < r.len)
      (hc : h.cell r.arr (r.off + i) = some v) :
      Step h ⟨o, .each true r i :: fs, none, false⟩
        ⟨o, (if v.isStructure then [Frame.walk v [i]] else []) ++ .each true r (i + 1) :: fs, none, false⟩
  | walk (o : Ord) (v : HV) (loc : List Nat) (fs : List Frame) :
      Step h ⟨o, .walk v loc :: fs, none, false⟩ ⟨o, .down v loc :: fs, some v, false⟩
  | downArr (o : Ord) (r : SRef) (loc : List Nat) (fs : List Frame) :
      Step h ⟨o, .down (.arr r) loc :: fs, none, false⟩ ⟨o, .downElems r 0 loc :: fs, none, false⟩
  | downObj (o : Ord) (a : Addr) (m : List (Bytes × HV)) (loc : List Nat) (fs : List Frame)
      (hg : h.get a = some (.members m)) :
      Step h ⟨o, .down (.obj a) loc :: fs, none, false⟩
        ⟨o, .downMembers (permute (o loc m.length) ((m.map Prod.snd).zipIdx.map fun p => (p.2, p.1))) loc
          :: fs, none, false⟩
  | downAtom (o : Ord) (v : V) (loc : List Nat) (fs : List Frame) :
      Step h ⟨o, .down (.atom v) loc :: fs, none, false⟩ ⟨o, fs, none, false⟩
  | downElem (o : Ord) (r : SRef) (i : Nat) (loc : List Nat) (fs : List Frame) (v : HV)
      (hi : i < r.len) (hc : h.cell r.arr (r.off + i) = some v) :
      Step h ⟨o, .downElems r i loc :: fs, none, false⟩
        ⟨o, (if v.isStructure then [Frame.walk v (i :: loc)] else []) ++ .downElems r (i + 1) loc :: fs,
          none, false⟩
  | downElemEnd (o : Ord) (r : SRef) (i : Nat) (loc : List Nat) (fs : List Frame) (hi : r.len ≤ i) :
      Step h ⟨o, .downElems r i loc :: fs, none, false⟩ ⟨o, fs, none, false⟩
  | downMember (o : Ord) (i : Nat) (v : HV) (vs : List (Nat × HV)) (loc : List Nat) (fs : List Frame) :
      Step h ⟨o, .downMembers ((i, v) :: vs) loc :: fs, none, false⟩
        ⟨o, (if v.isStructure then [Frame.walk v (i :: loc)] else []) ++ .downMembers vs loc :: fs,
          none, false⟩
  | downMemberEnd (o : Ord) (loc : List Nat) (fs : List Frame) :
      Step h ⟨o, .downMembers [] loc :: fs, none, false⟩ ⟨o, fs, none, false⟩

/-! ## The whole -/

/-- An evaluation: what it was called with, what its own goroutine has to do, and its producers, whose
channels are numbered in the order they were started. -/
structure Eval where
  prog : Addr
  root : HV
  oracle : Oracle
  code : PR Ctl
  prods : List Producer

/-- Memory and the evaluations so far, running or not. -/
structure Sys where
  heap : Heap
  evals : Nat → Option Eval

/-- The evaluation has returned (or panicked). -/
def Eval.Done (E : Eval) : Prop :=
  match E.code with
  | .ret (.ok (.halt _)) | .ret (.err _) | .ret (.panic _) | .ret .stuck => True
  | _ => False

/-- The system with evaluation `e` changed. -/
def Sys.update (y : Sys) (e : Nat) (E : Eval) (h : Heap) : Sys :=
  ⟨h, fun e' => if e' = e then some E else y.evals e'⟩

/-- What the caller may pass to `Eval`: its own memory and what finished evaluations returned. -/
def Sys.Known (y : Sys) (a : Addr) : Prop := a.owner = 0 ∨ ∃ E, y.evals a.owner = some E ∧ E.Done

/-- mach/run.go:227-236: the machine after receiving from the channel in `OpRep`. -/
def repGot (prog : Addr) (o : Order) (s : HState) : Option HV → PR Ctl
  | none => .ok (.next { s with values := s.values.tail, dot := .null })
  | some v => match o.pc with
    | none => .panic "pc must be small int"
    | some pc => branch prog pc { s with dot := v }

/-- mach/run.go:541-544: the machine after starting producer number `c`: the channel is pushed and the
output set reset. -/
def started (c : Nat) (s : HState) : PR Ctl := do
  let r ← emptySlice
  .ok (.await { s with values := c :: s.values, out := some r })

/-- One step of one goroutine of one evaluation (or of two that meet on a channel). -/
inductive EvalStep (env : Env) (grow : Nat → Nat) (e : Nat) : Heap → Eval → Heap → Eval → Prop where
  /-- An action on memory. -/
  | act (h h' : Heap) (E : Eval) (p : PR Ctl) (ha : Act e h E.code h' p) :
      EvalStep env grow e h E h' { E with code := p }
  /-- The next order. -/
  | next (h : Heap) (E : Eval) (s : HState) (hc : E.code = PR.ok (.next s)) :
      EvalStep env grow e h E h { E with code := order env grow E.oracle E.prog E.root s }
  /-- mach/run.go:541-544: a channel is made and its producer started. -/
  | start (h : Heap) (E : Eval) (walk : Bool) (s : HState) (r : SRef)
      (hc : E.code = PR.ok (.start walk s)) (ho : s.out = some r) :
      EvalStep env grow e h E h { E with
        code := started E.prods.length s,
        prods := E.prods ++ [Producer.start (E.oracle (s.tick - 1)) walk r] }
  /-- A step of producer number `c`. -/
  | prod (h : Heap) (E : Eval) (c : Nat) (P P' : Producer) (hp : E.prods[c]? = some P) (hs : P.Step h P') :
      EvalStep env grow e h E h { E with prods := E.prods.set c P' }
  /-- The evaluation receives the first value from a producer. -/
  | await (h : Heap) (E : Eval) (s : HState) (c : Nat) (cs : List Nat) (P : Producer) (v : HV)
      (hc : E.code = PR.ok (.await s)) (hv : s.values = c :: cs) (hp : E.prods[c]? = some P)
      (hv' : P.pending = some v) :
      EvalStep env grow e h E h { E with
        code := PR.ok (.next { s with dot := v }),
        prods := E.prods.set c { P with pending := none } }
  /-- The channel was closed without a value. -/
  | awaitClosed (h : Heap) (E : Eval) (s : HState) (c : Nat) (cs : List Nat) (P : Producer)
      (hc : E.code = PR.ok (.await s)) (hv : s.values = c :: cs) (hp : E.prods[c]? = some P)
      (hv' : P.closed = true) :
      EvalStep env grow e h E h { E with code := PR.ok (.next { s with dot := .null }) }
  /-- The evaluation receives a further value. -/
  | rep (h : Heap) (E : Eval) (o : Order) (s : HState) (c : Nat) (cs : List Nat) (P : Producer) (v : HV)
      (hc : E.code = PR.ok (.rep o s)) (hv : s.values = c :: cs) (hp : E.prods[c]? = some P)
      (hv' : P.pending = some v) :
      EvalStep env grow e h E h { E with
        code := repGot E.prog o s (some v),
        prods := E.prods.set c { P with pending := none } }
  /-- The channel has been closed. -/
  | repClosed (h : Heap) (E : Eval) (o : Order) (s : HState) (c : Nat) (cs : List Nat) (P : Producer)
      (hc : E.code = PR.ok (.rep o s)) (hv : s.values = c :: cs) (hp : E.prods[c]? = some P)
      (hv' : P.closed = true) :
      EvalStep env grow e h E h { E with code := repGot E.prog o s none }

/-- One step of the whole.  The caller builds documents and programs (`build`) and calls `Eval`
(`call`) on what it has; it does not modify what it has built. -/
inductive Step (env : Env) (grow : Nat → Nat) : Sys → Sys → Prop where
  | build (y : Sys) (o : Obj) : Step env grow y ⟨y.heap.alloc 0 o, y.evals⟩
  | call (y : Sys) (e : Nat) (he : e ≠ 0) (hn : y.evals e = none) (prog : Addr) (p : Program)
      (hk : y.Known prog) (hp : y.heap.get prog = some (.prog p)) (root : HV) (v : V)
      (hr : Rep y.Known y.heap root v) (oracle : Oracle) :
      Step env grow y (y.update e ⟨prog, root, oracle, begin root, []⟩ y.heap)
  | eval (y : Sys) (e : Nat) (E E' : Eval) (h' : Heap) (hE : y.evals e = some E)
      (hs : EvalStep env grow e y.heap E h' E') : Step env grow y (y.update e E' h')

/-- Any number of steps. -/
inductive Steps (env : Env) (grow : Nat → Nat) : Sys → Sys → Prop where
  | refl (y : Sys) : Steps env grow y y
  | step (x y z : Sys) (h1 : Steps env grow x y) (h2 : Step env grow y z) : Steps env grow x z

/-- Nothing built and nothing called yet. -/
def Sys.empty : Sys := ⟨fun _ => [], fun _ => none⟩

end JP.Conc
