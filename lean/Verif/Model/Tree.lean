import Verif.Model.RunText
/-!
The trees that `paths.ParsePath` and `paths.ParseScriptExpression` return, as a caller sees them: paths/expr.go,
paths/path.go; and the enquiries that mach/json.go exports.
-/
namespace JP

/-- paths/expr.go:31-36 `Inner.Kid`: `none` is nil and false. -/
def Expr.kid (kids : List Expr) (c : Int64) : Res Empty (Option Expr) :=
  if Int64.ofNat kids.length ≤ c then .ok none
  else if c < 0 then .panic "index out of range"
  else .ok kids[c.toInt.toNat]?

/-- paths/expr.go:18-19 `IsLeaf`: the method of the embedded `Op` (paths/ops.go:194-201). -/
def Expr.isLeaf (e : Expr) : Bool := e.opcode.isLeaf

/-- mach/json.go:70-73 `IsObject`. -/
def isObject : V → Bool | .obj _ => true | _ => false

/-- mach/json.go:76-79 `IsArray`. -/
def isArray : V → Bool | .arr _ => true | _ => false

/-- The verb `%#v` for a bound of a slice, inside the structure: an expression has the method `GoString` of the
embedded `Op` (paths/ops.go:179-181). -/
def Bound.goText : Option Bound → Bytes
  | none => b! "paths.Val(nil)"
  | some (.int n) => intToBytes n.toInt
  | some (.expr e) => e.opcode.name

/-- The verb `%#v` for an argument of a step. -/
def Val.goText (env : Env) : Val → Bytes
  | .name s => goQuote env s
  | .int n => intToBytes n.toInt
  | .str s => goQuote env s
  | .slice s => b! "&paths.Slice{Start:" ++ Bound.goText s.start ++ b! ", End:" ++ Bound.goText s.stop ++
      b! ", Stride:" ++ Bound.goText s.stride ++ b! "}"
  | .expr e => e.opcode.name

/-- paths/path.go:19-33 `Step.String`. -/
def Step.text (env : Env) (s : Step) : Bytes :=
  s.op.name ++ (if s.args.isEmpty then [] else c! '(' :: (commas (s.args.map (Val.goText env)) ++ [c! ')']))

end JP
