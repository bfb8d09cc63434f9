import Verif.Model.Coder
/-!
mach/coder.go with a limited stack: as in `Model/Coder`, but every call of a Go function that may come to `codeExpr` takes one frame of
those that are left, and returning gives it back.  The calls for leaves (`codeLeaf`, `codeOp`, `mkVal`, `asm`) are not counted.
-/
namespace JP

/-- A call when `d` frames are left. -/
def bframe (d : Nat) (k : Nat → Bld) : Bld :=
  match d with
  | 0 => fun _ => .panic "stack overflow"
  | d + 1 => k d

mutual
/-- mach/coder.go:113-129 `codeExpr`. -/
def cExpr : Expr → Nat → Bld
  | .inner op kids, d => bframe d fun d p =>
    if op.isLeaf then
      if !op.hasVal then codeOp op none p else .panic "unexpected Leaf op"
    else do
      let p ← cKids kids d p
      .ok (asm (mkSmall op (lenInt kids)) p)
  | .int n, d => bframe d fun _ => codeExpr (.int n)
  | .float n, d => bframe d fun _ => codeExpr (.float n)
  | .str n, d => bframe d fun _ => codeExpr (.str n)
  | .name n, d => bframe d fun _ => codeExpr (.name n)
  | .re n, d => bframe d fun _ => codeExpr (.re n)
  | .bool n, d => bframe d fun _ => codeExpr (.bool n)
  | .null, d => bframe d fun _ => codeExpr .null
  | .current, d => bframe d fun _ => codeExpr .current
  | .root, d => bframe d fun _ => codeExpr .root
/-- mach/coder.go:121-126: the loop of `codeExpr`. -/
def cKids : List Expr → Nat → Bld
  | [], _ => fun p => .ok p
  | e :: r, d => fun p => do
    let p ← cExpr e d p
    cKids r d p
end

/-- mach/coder.go:103-111 `codeVal`. -/
def cVal (op : Op) (v : Val) (d : Nat) : Bld := bframe d fun d =>
  match v with
  | .expr e => cExpr e d
  | v => codeVal op v

/-- mach/coder.go:76-82: the loop of `codeArgs`. -/
def cArgs : List Val → Nat → Bld
  | [], _ => fun p => .ok p
  | v :: r, d => fun p => do
    let p ← cVal (valOp v) v d p
    cArgs r d p

/-- mach/coder.go:67-73 `codeStep`. -/
def cStep (s : Step) (d : Nat) : Bld := bframe d fun d p => do
  let p ← bframe d (cArgs s.args) p
  .ok (asm (mkSmall s.op (lenInt s.args)) p)

/-- mach/coder.go:55-65 `codeLoop`. -/
def cLoop (s : Step) (intro : Op) (d : Nat) : Bld := bframe d fun d p => do
  let fpc := p.orders.length
  let p := asm (mkSmall intro 0) p
  let lpc := p.orders.length
  let p ← cStep s d p
  let p := asm (mkSmall .rep (Int64.ofNat lpc)) p
  .ok (patch fpc (mkSmall intro (Int64.ofNat p.orders.length)) p)

/-- mach/coder.go:24-51: one iteration of the loop of `Compile`. -/
def cPathStep (s : Step) (d : Nat) : Bld :=
  if s.op.isLeaf && s.op.hasVal then
    match s.args with
    | v :: _ => cVal s.op v d
    | [] => fun _ => .panic "index out of range"
  else match s.op with
    | .nestMember | .nestFilter | .nestSelect | .nestUnion | .nestWild => cLoop s .nest d
    | .filter => cLoop s .for_ d
    | _ => cStep s d

/-- mach/coder.go:24: the loop of `Compile`. -/
def cPath : Path → Nat → Bld
  | [], _ => fun p => .ok p
  | s :: r, d => fun p => do
    let p ← cPathStep s d p
    cPath r d p

/-- mach/coder.go:21-53 `Compile` with `d` frames. -/
def cCompile (d : Nat) (path : Path) : Res CErr Program := bframe d (cPath path) ⟨[], []⟩

end JP
