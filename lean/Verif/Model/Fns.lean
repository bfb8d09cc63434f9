import Verif.Model.Conv
/-!
mach/fns.go: the predefined functions, and `call` (mach/run.go:512-522).
-/
namespace JP

/-- The errors that `Run` can return (mach/run.go). Each carries what its message mentions. -/
inductive RErr where
  /-- run.go:449: a dynamic regular expression that does not compile. -/
  | badRegexp (pattern : Bytes)
  /-- run.go:452: right operand of `=~` neither string nor regular expression. -/
  | matchRight (v : V)
  /-- run.go:458: left operand of `=~` not a string. -/
  | matchLeft (v : V)
  /-- run.go:470: right operand of `in`/`nin` not an array. -/
  | inRight (op : Op) (v : V)
  /-- run.go:516. -/
  | unknownFunction (id : Bytes)
  /-- run.go:519. -/
  | wrongArgs (id : Bytes) (need got : Nat)
  /-- run.go:482. -/
  | unimplemented (op : Nat) (pc : Nat)
  deriving Repr, Inhabited

/-- The predefined functions: mach/fns.go:22-266. -/
inductive Fn where
  | abs | avg | ceil | contains | ends_with | floor | keys | length | max | min | prod
  | starts_with | sum | to_number | tokenize
  deriving DecidableEq, Repr

/-- Lookup in the map `functions`: mach/fns.go:22-266. -/
def Fn.ofName (id : Bytes) : Option Fn :=
  if id = b! "abs" then some .abs
  else if id = b! "avg" then some .avg
  else if id = b! "ceil" then some .ceil
  else if id = b! "contains" then some .contains
  else if id = b! "ends_with" then some .ends_with
  else if id = b! "floor" then some .floor
  else if id = b! "keys" then some .keys
  else if id = b! "length" then some .length
  else if id = b! "max" then some .max
  else if id = b! "min" then some .min
  else if id = b! "prod" then some .prod
  else if id = b! "starts_with" then some .starts_with
  else if id = b! "sum" then some .sum
  else if id = b! "to_number" then some .to_number
  else if id = b! "tokenize" then some .tokenize
  else none

/-- `Function.na` (mach/fns.go:14); `none` is `AnyNumber`. -/
def Fn.arity : Fn → Option Nat
  | .max | .min => none
  | .contains | .ends_with | .starts_with | .tokenize => some 2
  | _ => some 1

/-- mach/fns.go:288-300 `arithArrayOp`, the loop from element `i` with the result so far. -/
def arithLoop (env : Env) (f : Nat → F64 → F64 → F64) (i : Nat) (result : F64) : List V → V
  | [] => .float result
  | v :: r => if !isArith v then .err .type else arithLoop env f (i + 1) (f i result (cvf env v)) r

/-- mach/fns.go:288-300 `arithArrayOp`. -/
def arithArrayOp (env : Env) (a : List V) (f : Nat → F64 → F64 → F64) : V :=
  match a with
  | [] => .null
  | _ => arithLoop env f 0 .zero a

/-- mach/fns.go:302-315 `stringArrayOp`, the loop. -/
def stringLoop (f : Nat → Bytes → Bytes → Bytes) (i : Nat) (result : Bytes) : List V → V
  | [] => .str result
  | .str s :: r => stringLoop f (i + 1) (f i result s) r
  | _ :: _ => .err .type

/-- mach/fns.go:302-315 `stringArrayOp`. -/
def stringArrayOp (a : List V) (f : Nat → Bytes → Bytes → Bytes) : V :=
  match a with
  | [] => .null
  | _ => stringLoop f 0 [] a

/-- mach/fns.go:317-329 `minMaxArray`. -/
def minMaxArray (env : Env) (a : List V) (arithf : Nat → F64 → F64 → F64)
    (stringf : Nat → Bytes → Bytes → Bytes) : V :=
  match a with
  | [] => .null
  | .gint _ :: _ | .int _ :: _ | .float _ :: _ => arithArrayOp env a arithf
  | .str _ :: _ => stringArrayOp a stringf
  | _ => .err .type

/-- mach/fns.go:331-336. -/
def minArith (index : Nat) (m el : F64) : F64 := if index == 0 || el.flt m then el else m
/-- mach/fns.go:338-343. -/
def maxArith (index : Nat) (m el : F64) : F64 := if index == 0 || m.flt el then el else m
/-- mach/fns.go:345-350. -/
def minString (index : Nat) (m el : Bytes) : Bytes := if index == 0 || bytesLt el m then el else m
/-- mach/fns.go:352-357 (the comparison is `el < max`, as in `minString`). -/
def maxString (index : Nat) (m el : Bytes) : Bytes := if index == 0 || bytesLt el m then el else m

/-- mach/fns.go:54-64: the loop of `avg`. -/
def avgLoop (env : Env) (n : Nat) (sum : F64) : List V → V
  | [] => .float (sum.fdiv (.ofInt n))
  | v :: r => if !isArith v then .err .type else avgLoop env n (sum.fadd (cvf env v)) r

/-- mach/fns.go:268-286 `stringArgs`. -/
def stringArgs : List V → Option (Bytes × Bytes)
  | [.str a, .str b] => some (a, b)
  | _ => none

/-- mach/fns.go:91-97: the loop of `contains` on an array. -/
def containsElem (env : Env) (x : V) : List V → Bool
  | [] => false
  | v :: r => if eqVal env v x then true else containsElem env x r

/-- The bodies of the functions (mach/fns.go:22-266), called with a slice of arguments.
Indexing `args[i]` beyond its length is a panic; `call` checks the count first.
`ord` is the iteration order for `keys` (fns.go:131). -/
def Fn.apply (env : Env) (ord : Ord) (f : Fn) (args : List V) : Res RErr V :=
  match f, args with
  -- fns.go:23-50
  | .abs, a :: _ => .ok <| match a with
    | .gint n => .int (if n < 0 then -n else n)
    | .int n => if n < 0 then (if -n < 0 then .err .overflow else .int (-n)) else .int n
    | .float f => .float (if f.flt .zero then f.fneg else f)
    | _ => .err .type
  -- fns.go:51-66
  | .avg, a :: _ => .ok <| match a with
    | .arr xs => avgLoop env xs.length .zero xs
    | _ => .err .type
  -- fns.go:67-79
  | .ceil, a :: _ => .ok <| match a with
    | .gint n => .gint n
    | .int n => .int n
    | .float f => .float f.ceil
    | _ => .err .type
  -- fns.go:80-102
  | .contains, a :: rest => match a with
    | .str s => match rest with
      | .str t :: _ => .ok (.bool (containsSub s t))
      | _ :: _ => .ok (.err .type)
      | [] => .panic "index out of range"
    | .arr xs => match rest with
      | x :: _ => .ok (.bool (containsElem env x xs))
      | [] => if xs.isEmpty then .ok (.bool false) else .panic "index out of range"
    | _ => .ok (.err .type)
  -- fns.go:103-112
  | .ends_with, args => .ok <| match stringArgs args with
    | some (a, b) => .bool (hasSuffix a b)
    | none => .nothing
  -- fns.go:113-125
  | .floor, a :: _ => .ok <| match a with
    | .gint n => .gint n
    | .int n => .int n
    | .float f => .float f.floor
    | _ => .err .type
  -- fns.go:126-139
  | .keys, a :: _ => .ok <| match a with
    | .obj kvs => .arr (permute (ord [] kvs.length) (kvs.map fun kv => V.str kv.1))
    | _ => .err .type
  -- fns.go:140-154
  | .length, a :: _ => .ok <| match a with
    | .str s => .int (Int64.ofNat (runeCount s))
    | .arr xs => .int (Int64.ofNat xs.length)
    | .obj kvs => .int (Int64.ofNat kvs.length)
    | _ => .null
  -- fns.go:155-171
  | .max, [] => .ok .null
  | .max, [a] => .ok <| match a with
    | .arr xs => minMaxArray env xs maxArith maxString
    | _ => .err .type
  | .max, args => .ok (minMaxArray env args maxArith maxString)
  -- fns.go:172-188
  | .min, [] => .ok .null
  | .min, [a] => .ok <| match a with
    | .arr xs => minMaxArray env xs minArith minString
    | _ => .err .type
  | .min, args => .ok (minMaxArray env args minArith minString)
  -- fns.go:189-205
  | .prod, a :: _ => .ok <| match a with
    | .arr xs => if xs.isEmpty then .null
      else arithArrayOp env xs fun i result el => if 0 < i then result.fmul el else el
    | _ => .err .type
  -- fns.go:206-215
  | .starts_with, args => .ok <| match stringArgs args with
    | some (a, b) => .bool (hasPrefix a b)
    | none => .nothing
  -- fns.go:216-229
  | .sum, a :: _ => .ok <| match a with
    | .arr xs => if xs.isEmpty then .float .zero
      else arithArrayOp env xs fun _ result el => result.fadd el
    | _ => .err .type
  -- fns.go:230-246
  | .to_number, a :: _ => .ok <| match a with
    | .gint n => .gint n
    | .int n => .int n
    | .float f => .float f
    | .str s => match env.parseFloat s with
      | some f => .float f
      | none => .err (.parseNum s)
    | _ => .err .type
  -- fns.go:247-265
  | .tokenize, args => .ok <| match stringArgs args with
    | some (s, re) => if env.reValid re then .arr ((env.reSplit re s).map V.str) else .err (.regexp re)
    | none => .err .type
  | _, [] => .panic "index out of range"

/-- mach/run.go:513-522 `call`. -/
def call (env : Env) (ord : Ord) (id : Bytes) (args : List V) : Res RErr V :=
  match Fn.ofName id with
  | none => .err (.unknownFunction id)
  | some f =>
    match f.arity with
    | some na => if args.length ≠ na then .err (.wrongArgs id na args.length) else f.apply env ord args
    | none => f.apply env ord args

end JP
