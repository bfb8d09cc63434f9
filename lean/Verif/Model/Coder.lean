import Verif.Model.Order
/-!
mach/coder.go: from a path to a program.
-/
namespace JP

/-- mach/coder.go:10-12. -/
inductive CErr where
  | tooManyVals
  deriving DecidableEq, Repr

/-- Go's `==` on map keys of interface type `paths.Val`, as used by `b.vals[val]`
(mach/coder.go:188): same dynamic type and equal values.  `*Slice` and `regexpVal` hold pointers, and
each one in a parsed path is a distinct allocation, so they never compare equal. -/
def PVal.keyEq : PVal → PVal → Bool
  | .int a, .int b => a == b
  | .str a, .str b => a == b
  | .name a, .name b => a == b
  | .float a, .float b => a.feq b
  | _, _ => false

/-- Index of the first constant equal to `v`.  The Go map `b.vals` holds exactly the entries of
`prog.vals`, each first occurrence at its own index. -/
def findVal (v : PVal) (i : Nat) : List PVal → Option Nat
  | [] => none
  | w :: r => if w.keyEq v then some i else findVal v (i + 1) r

/-- The effects of building: the program so far is the state. -/
abbrev Bld := Program → Res CErr Program

/-- mach/program.go:115-118 `asm`. -/
def asm (o : Order) (p : Program) : Program := { p with orders := p.orders ++ [o] }

/-- mach/coder.go:187-199 `mkVal`. -/
def mkVal (v : PVal) (p : Program) : Res CErr (UInt32 × Program) :=
  match findVal v 0 p.vals with
  | some i => .ok (UInt32.ofNat i, p)
  | none =>
    let o := p.vals.length
    if indexTop ≤ o then .err .tooManyVals
    else .ok (UInt32.ofNat o, { p with vals := p.vals ++ [v] })

/-- mach/coder.go:166-184 `codeOp`; `none` is a nil value. -/
def codeOp (op : Op) (val : Option PVal) : Bld := fun p =>
  match val with
  | none => .ok (asm (mkSmall op 0) p)
  | some v =>
    let general : Res CErr Program := do
      let (i, p) ← mkVal v p
      .ok (asm (mkOrder op i) p)
    match v with
    | .int n => if isSmallInt n then .ok (asm (mkSmall op n) p) else general
    | _ => general

/-- Go `int` of a list length. -/
def lenInt {α : Type} (xs : List α) : Int64 := Int64.ofNat xs.length

mutual
/-- mach/coder.go:113-164 `codeExpr` and `codeLeaf`.  An `Inner` whose operator is a leaf operator
is not built by the parser. -/
def codeExpr : Expr → Bld
  | .int n => fun p =>
    if isSmallInt n then .ok (asm (mkSmall .int n) p) else codeOp .int (some (.int n)) p
  | .float f => codeOp .real (some (.float f))
  | .str s => codeOp .string (some (.str s))
  | .name s => codeOp .id (some (.name s))
  | .re s => codeOp .re (some (.re s))
  | .bool b => fun p => .ok (asm (mkSmall .bool (if b then 1 else 0)) p)
  | .null => codeOp .null none
  | .current => codeOp .current none
  | .root => codeOp .root none
  | .inner op kids => fun p =>
    if op.isLeaf then
      if !op.hasVal then codeOp op none p else .panic "unexpected Leaf op"
    else do
      let p ← codeKids kids p
      .ok (asm (mkSmall op (lenInt kids)) p)
/-- mach/coder.go:121-126. -/
def codeKids : List Expr → Bld
  | [] => fun p => .ok p
  | e :: r => fun p => do
    let p ← codeExpr e p
    codeKids r p
end

/-- mach/coder.go:86-101 `valOp`. -/
def valOp : Val → Op
  | .name _ => .id
  | .int _ => .int
  | .str _ => .string
  | .slice _ => .bounds
  | .expr _ => .exp

/-- mach/coder.go:103-111 `codeVal`. -/
def codeVal (op : Op) (v : Val) : Bld :=
  match v with
  | .expr e => codeExpr e
  | .name s => if !op.hasVal then codeOp op none else codeOp op (some (.name s))
  | .int n => if !op.hasVal then codeOp op none else codeOp op (some (.int n))
  | .str s => if !op.hasVal then codeOp op none else codeOp op (some (.str s))
  | .slice s => if !op.hasVal then codeOp op none else codeOp op (some (.slice s))

/-- mach/coder.go:75-83 `codeArgs`. -/
def codeArgs : List Val → Bld
  | [] => fun p => .ok p
  | v :: r => fun p => do
    let p ← codeVal (valOp v) v p
    codeArgs r p

/-- mach/coder.go:67-73 `codeStep`. On an error the Go code still assembles the order, into a
program that is then dropped. -/
def codeStep (s : Step) : Bld := fun p => do
  let p ← codeArgs s.args p
  .ok (asm (mkSmall s.op (lenInt s.args)) p)

/-- mach/program.go:121-123 `patch`. -/
def patch (pc : Nat) (o : Order) (p : Program) : Program := { p with orders := p.orders.set pc o }

/-- mach/coder.go:55-65 `codeLoop`. -/
def codeLoop (s : Step) (intro : Op) : Bld := fun p => do
  let fpc := p.orders.length
  let p := asm (mkSmall intro 0) p
  let lpc := p.orders.length
  let p ← codeStep s p
  let p := asm (mkSmall .rep (Int64.ofNat lpc)) p
  .ok (patch fpc (mkSmall intro (Int64.ofNat p.orders.length)) p)

/-- mach/coder.go:24-51: one iteration of the loop of `Compile`.  A step whose operator is a
value-carrying leaf (not built by the parser) indexes `step.Args[0]`. -/
def codePathStep (s : Step) : Bld :=
  if s.op.isLeaf && s.op.hasVal then
    match s.args with
    | v :: _ => codeVal s.op v
    | [] => fun _ => .panic "index out of range"
  else match s.op with
    | .nestMember | .nestFilter | .nestSelect | .nestUnion | .nestWild => codeLoop s .nest
    | .filter => codeLoop s .for_
    | _ => codeStep s

/-- mach/coder.go:24: the loop of `Compile`. -/
def codePath : Path → Bld
  | [] => fun p => .ok p
  | s :: r => fun p => do
    let p ← codePathStep s p
    codePath r p

/-- mach/coder.go:21-53 `Compile`. -/
def compile (path : Path) : Res CErr Program := codePath path ⟨[], []⟩

end JP
