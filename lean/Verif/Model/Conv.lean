import Verif.Model.Value
/-!
mach/json.go: type enquiries, conversions and JavaScript equality.
-/
namespace JP

/-- mach/json.go:20-23. -/
def isString : V → Bool | .str _ => true | _ => false
/-- mach/json.go:26-33. -/
def isInt : V → Bool | .gint _ | .int _ => true | _ => false
/-- mach/json.go:36-39. -/
def isFloat : V → Bool | .float _ => true | _ => false
/-- mach/json.go:42-45. -/
def isSlice : V → Bool | .slice _ => true | _ => false
/-- mach/json.go:48-57. -/
def isArith : V → Bool | .gint _ | .int _ | .float _ | .bool _ => true | _ => false
/-- mach/json.go:60-67. -/
def isSimple : V → Bool | .bool _ | .gint _ | .int _ | .float _ | .str _ => true | _ => false
/-- mach/json.go:82-89. -/
def isStructure : V → Bool | .obj _ | .arr _ => true | _ => false
/-- mach/run.go:98-101. -/
def isNothing : V → Bool | .err _ => true | _ => false

/-- `int64(f)`: truncation when the value is in range, else implementation-specific. -/
def f2i (env : Env) (f : F64) : Int64 :=
  if f.isNaN || f.isInf then env.f2iOut f
  else if -(2^63 : Int) ≤ f.trunc ∧ f.trunc < 2^63 then Int64.ofInt f.trunc
  else env.f2iOut f

/-- mach/json.go:274-290 `cvs`. -/
def cvs : V → Bytes
  | .err _ => b! "undefined"
  | .null => b! "null"
  | .str s => s
  | .bool b => if b then b! "true" else b! "false"
  | .gint n => intToBytes n.toInt
  | .int n => intToBytes n.toInt
  | .float f => fmtFloat f
  | .num s => s
  | _ => b! "[object Object]"

/-- mach/json.go:293-327 `cvi`. (The `paths.IntVal` case arises only for slice bounds: `Bound.cvi`.) -/
def cvi (env : Env) : V → Int64
  | .bool b => if b then 1 else 0
  | .gint n => n
  | .int n => n
  | .float f => f2i env f
  | .str s => if s = [] then 0 else (parseInt s).getD 0
  | .num s => (parseInt s).getD 0
  | _ => 0

/-- mach/json.go:293-327 `cvi`, applied to a slice bound (mach/run.go:551-567): `paths.IntVal` gives
its value (case at 322), an `Expr` falls into `default` (324) and gives 0. -/
def Bound.cvi : Bound → Int64
  | .int n => n
  | .expr _ => 0

/-- mach/json.go:330-362 `cvf`. -/
def cvf (env : Env) : V → F64
  | .bool b => if b then .one else .zero
  | .gint n => .ofInt n.toInt
  | .int n => .ofInt n.toInt
  | .float f => f
  | .str s => if s = [] then .zero else (env.parseFloat s).getD .nan
  | .num s => (env.parseFloat s).getD .nan
  | _ => .nan

/-- mach/json.go:365-392 `cvb`. -/
def cvb (env : Env) : V → Bool
  | .null | .err _ => false
  | .bool b => b
  | .gint n => n != 0
  | .int n => n != 0
  | .float f => !f.isNaN && !f.feq .zero && !f.feq (.fneg .zero)
  | .str s => s != []
  | .num s => match parseInt s with
    | some n => n != 0
    | none => match env.parseFloat s with
      | some f => !f.feq .zero
      | none => s != []
  | _ => true

/-- mach/json.go:397-404 `jsType`. -/
inductive JsType where
  | undefined | null | number | string | boolean | object
  deriving DecidableEq, Repr

/-- mach/json.go:407-422 `typeOf`. -/
def typeOf : V → JsType
  | .err _ => .undefined
  | .null => .null
  | .gint _ | .int _ | .float _ => .number
  | .str _ => .string
  | .bool _ => .boolean
  | _ => .object

/-- mach/json.go:136-147 `eqNum`. -/
def eqNum (env : Env) (a b : V) : Bool :=
  if isFloat a || isFloat b then
    let va := cvf env a
    let vb := cvf env b
    if va.feq .zero && vb.feq (.fneg .zero) || vb.feq .zero && va.feq (.fneg .zero) then true
    else va.feq vb
  else cvi env a == cvi env b

/-- mach/json.go:118-133 `badNum`. -/
def badNum (env : Env) (s : Bytes) (fp : Bool) : Bool :=
  if s = [] then false
  else if !fp && (parseInt s).isSome then false
  else (env.parseFloat s).isNone

/-- mach/json.go:93-102 `eqArrayS`. -/
def eqArrayS (a : List V) (b : Bytes) : Bool :=
  match a with
  | [] => b == []
  | [x] => cvs x == b
  | _ => false

/-- mach/json.go:106-115 `eqArrayN`. -/
def eqArrayN (env : Env) (a : List V) (b : V) : Bool :=
  match a with
  | [] => eqNum env b (.float .zero)
  | [x] => eqNum env x b
  | _ => false

/-- mach/json.go:186-195: comparison of an array with a boolean. -/
def eqArrayB (env : Env) (a : V) (b : V) : Bool :=
  match a with
  | .arr xs =>
    let n := cvi env b
    n == 0 && xs.isEmpty || (match xs with | [x] => cvi env x == n | _ => false)
  | _ => false

/-- mach/json.go:155-218: the cases of `eqVal` where the types differ. -/
def eqMixed (env : Env) (a b : V) : Bool :=
  match typeOf a, typeOf b with
  | .null, .undefined | .undefined, .null => true
  | .number, .string => if badNum env (cvs b) (isFloat a) then false else eqNum env a b
  | .string, .number => if badNum env (cvs a) (isFloat b) then false else eqNum env a b
  | .boolean, .number | .number, .boolean => eqNum env a b
  | .boolean, .string =>
    if badNum env (cvs b) true then false else (cvf env a).feq (cvf env b)
  | .string, .boolean =>
    if badNum env (cvs a) true then false else (cvf env a).feq (cvf env b)
  | .object, .boolean => eqArrayB env a b
  | .boolean, .object => eqArrayB env b a
  | .string, .object | .object, .string =>
    match a, b with
    | .arr xs, _ => eqArrayS xs (cvs b)
    | _, .arr ys => eqArrayS ys (cvs a)
    | _, _ => false
  | .number, .object | .object, .number =>
    match a, b with
    | .arr xs, _ => eqArrayN env xs b
    | _, .arr ys => eqArrayN env ys a
    | _, _ => false
  | _, _ => false

mutual
/-- mach/json.go:150-259 `eqVal`. -/
def eqVal (env : Env) (a b : V) : Bool :=
  if typeOf a != typeOf b then eqMixed env a b
  else match a with
    -- 11.9.3(1), json.go:221-229
    | .err _ | .null => true
    | .gint _ | .int _ | .float _ => eqNum env a b
    | .str s => (match b with | .str t => s == t | _ => false)
    | .bool x => (match b with | .bool y => x == y | _ => false)
    -- json.go:233-243
    | .arr xs => (match b with | .arr ys => xs.length == ys.length && eqElems env xs ys | _ => false)
    -- json.go:244-254
    | .obj kvs => (match b with | .obj mvs => kvs.length == mvs.length && eqMembers env kvs mvs | _ => false)
    -- json.go:255-256
    | .num _ | .name _ | .re _ | .slice _ => false
/-- mach/json.go:238-242: element by element (the lengths have been checked). -/
def eqElems (env : Env) : List V → List V → Bool
  | [], _ => true
  | _ :: _, [] => true
  | x :: xs, y :: ys => eqVal env x y && eqElems env xs ys
/-- mach/json.go:249-253: every member of `a` against `b[k]`, which is nil when `b` has no `k`.
The Go loop stops at the first difference; the answer does not depend on the iteration order. -/
def eqMembers (env : Env) : List (Bytes × V) → List (Bytes × V) → Bool
  | [], _ => true
  | (k, v) :: r, m => eqVal env v ((lookup m k).getD .null) && eqMembers env r m
end

/-- mach/json.go:264-271 `searchJSON`. -/
def searchJSON (env : Env) (vals : List V) (v : V) (f : Bool) : Bool :=
  match vals with
  | [] => !f
  | el :: r => if eqVal env el v then f else searchJSON env r v f

end JP
