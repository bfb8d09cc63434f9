import Verif.Model.F64
/-!
Abstract syntax: paths/ops.go, paths/expr.go, paths/val.go, paths/path.go.
-/
namespace JP

/-- paths/ops.go:15-74 `Op`, in declaration order (so `Op.toNat` is Go's `iota` value). -/
inductive Op where
  | error | int | bool | id | real | string | re | null | bounds
  | member | select | union | wild | filter | exp
  | for_ | nest | rep
  | nestMember | nestSelect | nestUnion | nestWild | nestFilter
  | root | current | dot | index | slice | lt | le | eq | ne | ge | gt | and | or
  | mul | div | mod | neg | add | sub | call | array | in_ | nin | match_ | not
  deriving DecidableEq, Repr, Inhabited

/-- The `iota` value of an operator: paths/ops.go:17-74. -/
def Op.toNat (o : Op) : Nat := o.ctorIdx

/-- All operators in `iota` order. -/
def Op.all : List Op :=
  [.error, .int, .bool, .id, .real, .string, .re, .null, .bounds,
   .member, .select, .union, .wild, .filter, .exp, .for_, .nest, .rep,
   .nestMember, .nestSelect, .nestUnion, .nestWild, .nestFilter,
   .root, .current, .dot, .index, .slice, .lt, .le, .eq, .ne, .ge, .gt, .and, .or,
   .mul, .div, .mod, .neg, .add, .sub, .call, .array, .in_, .nin, .match_, .not]

/-- The operator with a given number, if any (Go's conversion `paths.Op(o & opMask)` keeps numbers
that name no operator; they fall into `default:` of Run's switch). -/
def Op.ofNat? (n : Nat) : Option Op := Op.all[n]?

/-- paths/ops.go:194-201 `IsLeaf`. -/
def Op.isLeaf : Op → Bool
  | .id | .string | .int | .bool | .real | .re | .null | .root | .current | .wild | .bounds => true
  | _ => false

/-- paths/ops.go:204-211 `HasVal`. -/
def Op.hasVal : Op → Bool
  | .id | .string | .int | .bool | .real | .re | .bounds => true
  | _ => false

/-- paths/ops.go:216-233 `precedence`. -/
def Op.precedence : Op → Int
  | .or => 0
  | .and => 1
  | .eq | .ne => 2
  | .lt | .le | .gt | .ge | .match_ | .in_ | .nin => 3
  | .add | .sub => 4
  | .mul | .div | .mod => 5
  | _ => -1

/-- paths/ops.go:236-238 `associativity`. -/
def Op.associativity (_ : Op) : Int := 1

/-- paths/expr.go:13-110 `Expr`.  Each Go leaf type embeds its `Op`; the parser (the only producer
used by `jsonpath.Compile`) always pairs a leaf type with one opcode, except `NameLeaf`, which is
used for `OpID`, `OpCurrent` and `OpRoot` and becomes three constructors here.
A compiled `*regexp.Regexp` is represented by its pattern text (paths/expr.go:102-106). -/
inductive Expr where
  | int (n : Int64)
  | float (f : F64)
  | str (s : Bytes)
  | bool (b : Bool)
  | null
  | name (s : Bytes)
  | current
  | root
  | re (pattern : Bytes)
  | inner (op : Op) (kids : List Expr)
  deriving Repr, Inhabited

/-- `Expr.Opcode()`: paths/expr.go:14-16, paths/ops.go:189-191. -/
def Expr.opcode : Expr → Op
  | .int _ => .int
  | .float _ => .real
  | .str _ => .string
  | .bool _ => .bool
  | .null => .null
  | .name _ => .id
  | .current => .current
  | .root => .root
  | .re _ => .re
  | .inner op _ => op

/-- A bound of a slice: paths/val.go:84-88; the parser stores an `IntVal` or an `Expr`
(paths/parsepath.go:288-301). -/
inductive Bound where
  | int (n : Int64)
  | expr (e : Expr)
  deriving Repr, Inhabited

/-- paths/val.go:84-88 `Slice`; `none` is Go's nil. -/
structure Slice where
  start : Option Bound
  stop : Option Bound
  stride : Option Bound
  deriving Repr, Inhabited

/-- paths/val.go:19-21 `Val`, as it can occur as an argument of a `Step`. -/
inductive Val where
  | name (s : Bytes)
  | int (n : Int64)
  | str (s : Bytes)
  | slice (s : Slice)
  | expr (e : Expr)
  deriving Repr, Inhabited

/-- paths/path.go:14-17 `Step`. -/
structure Step where
  op : Op
  args : List Val
  deriving Repr, Inhabited

/-- paths/path.go:10 `Path`. -/
abbrev Path := List Step

end JP
