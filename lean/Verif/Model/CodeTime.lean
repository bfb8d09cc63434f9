import Verif.Model.ParseTime
import Verif.Model.Api
/-!
mach/coder.go and `Compile` with a clock: as in `Model/Coder`, but counting.  Every call of a function and every turn of a loop is a step.
Looking up a constant in the map of `mkVal` and an `append` are one step each.
-/
namespace JP

/-- Building with a count of steps. -/
abbrev TB := Program → Res CErr Program × Nat

namespace TB
/-- One after the other: the steps add up. -/
def seq (x y : TB) : TB := fun p =>
  match x p with
  | (.ok p, n) => ((y p).1, n + (y p).2)
  | (.err e, n) => (.err e, n)
  | (.panic m, n) => (.panic m, n)
  | (.stuck, n) => (.stuck, n)
/-- Something that takes `n` steps. -/
def of (n : Nat) (x : Bld) : TB := fun p => (x p, n)
/-- `n` steps before. -/
def after (n : Nat) (x : TB) : TB := fun p => ((x p).1, n + (x p).2)
end TB

mutual
/-- mach/coder.go:113-164 `codeExpr`; for a leaf also `codeLeaf`, `codeOp`, `mkVal` and `asm`. -/
def kExpr : Expr → TB
  | .inner op kids => TB.after 1 (
    if op.isLeaf then
      if !op.hasVal then TB.of 4 (codeOp op none) else TB.of 1 fun _ => .panic "unexpected Leaf op"
    else TB.seq (kKids kids) (TB.of 1 fun p => .ok (asm (mkSmall op (lenInt kids)) p)))
  | .int n => TB.of 5 (codeExpr (.int n))
  | .float n => TB.of 5 (codeExpr (.float n))
  | .str n => TB.of 5 (codeExpr (.str n))
  | .name n => TB.of 5 (codeExpr (.name n))
  | .re n => TB.of 5 (codeExpr (.re n))
  | .bool n => TB.of 5 (codeExpr (.bool n))
  | .null => TB.of 5 (codeExpr .null)
  | .current => TB.of 5 (codeExpr .current)
  | .root => TB.of 5 (codeExpr .root)
/-- mach/coder.go:121-126: the loop of `codeExpr`. -/
def kKids : List Expr → TB
  | [] => TB.of 0 fun p => .ok p
  | e :: r => TB.after 1 (TB.seq (kExpr e) (kKids r))
end

/-- mach/coder.go:103-111 `codeVal`, with `codeOp`, `mkVal` and `asm`. -/
def kVal (op : Op) (v : Val) : TB := TB.after 1 (
  match v with
  | .expr e => kExpr e
  | v => TB.of 3 (codeVal op v))

/-- mach/coder.go:76-82: the loop of `codeArgs`; a turn also calls `valOp`. -/
def kArgs : List Val → TB
  | [] => TB.of 0 fun p => .ok p
  | v :: r => TB.after 2 (TB.seq (kVal (valOp v) v) (kArgs r))

/-- mach/coder.go:67-73 `codeStep`, and `codeArgs`. -/
def kStep (s : Step) : TB := TB.after 2 (TB.seq (kArgs s.args) (TB.of 1 fun p => .ok (asm (mkSmall s.op (lenInt s.args)) p)))

/-- mach/coder.go:55-65 `codeLoop`: it calls `asm` twice, and `patch`. -/
def kLoop (s : Step) (intro : Op) : TB := fun p =>
  let fpc := p.orders.length
  let q := asm (mkSmall intro 0) p
  let lpc := q.orders.length
  TB.after 2 (TB.seq (kStep s) (TB.of 2 fun p =>
    let p := asm (mkSmall .rep (Int64.ofNat lpc)) p
    .ok (patch fpc (mkSmall intro (Int64.ofNat p.orders.length)) p))) q

/-- mach/coder.go:24-51: one iteration of the loop of `Compile`. -/
def kPathStep (s : Step) : TB := TB.after 1 (
  if s.op.isLeaf && s.op.hasVal then
    match s.args with
    | v :: _ => kVal s.op v
    | [] => TB.of 0 fun _ => .panic "index out of range"
  else match s.op with
    | .nestMember | .nestFilter | .nestSelect | .nestUnion | .nestWild => kLoop s .nest
    | .filter => kLoop s .for_
    | _ => kStep s)

/-- mach/coder.go:24: the loop of `Compile`. -/
def kPath : Path → TB
  | [] => TB.of 0 fun p => .ok p
  | s :: r => TB.seq (kPathStep s) (kPath r)

/-- mach/coder.go:21-53 `Compile`. -/
def kCompile (path : Path) : Res CErr Program × Nat := TB.after 1 (kPath path) ⟨[], []⟩

/-- jsonpath.go:46-56 `Compile`. -/
def tCompile (env : Env) (expr : Bytes) : Res CompileErr JSONPath × Nat :=
  match tParsePath env expr with
  | (.err e, n) => (.err (.parse e), n + 1)
  | (.panic m, n) => (.panic m, n + 1)
  | (.stuck, n) => (.stuck, n + 1)
  | (.ok path, n) =>
    match kCompile path with
    | (.err e, m) => (.err (.code e), n + m + 1)
    | (.panic s, m) => (.panic s, n + m + 1)
    | (.stuck, m) => (.stuck, n + m + 1)
    | (.ok prog, m) => (.ok ⟨expr, prog⟩, n + m + 1)

end JP
