import Verif.Model.Syntax
import Verif.Model.Format
/-!
Values: the dynamic types that a Go `interface{}` of type `JSON` (mach/json.go:15) can hold in this
program.
-/
namespace JP

/-- Error values that can flow through the evaluator as "nothing" (mach/run.go:15-23, 92-101;
mach/fns.go:236-245, 254-257). -/
inductive Err where
  | failure            -- ErrFailure, also called `nothing`
  | type               -- ErrType
  | overflow           -- ErrOverflow
  | parseNum (s : Bytes)   -- *strconv.NumError from ParseFloat
  | regexp (s : Bytes)     -- *syntax.Error from regexp.Compile
  deriving Repr, DecidableEq, Inhabited

/-- A value of Go type `JSON = interface{}`.
* `null`, `bool`, `float`, `str`, `arr`, `obj` are what encoding/json produces;
* `num` is `json.Number` (encoding/json with UseNumber); `gint` is Go's `int` (64-bit), which
  documents built by other decoders may hold; `int` is `int64`, produced by expressions;
* `name` is `paths.NameVal`, `re` is `*regexp.Regexp` (its pattern), `slice` is `*paths.Slice`,
  `err` is any value implementing `error`: these occur on the expression stack only.

A Go map is the list of its members; the order in the list carries no meaning (iteration order is
supplied separately, see `Ord`), and documents have distinct keys (`V.WF`). -/
inductive V where
  | null
  | bool (b : Bool)
  | gint (n : Int64)
  | int (n : Int64)
  | float (f : F64)
  | str (s : Bytes)
  | num (s : Bytes)
  | arr (xs : List V)
  | obj (kvs : List (Bytes × V))
  | name (s : Bytes)
  | re (pattern : Bytes)
  | slice (s : Slice)
  | err (e : Err)
  deriving Repr, Inhabited

/-- `nothing`: mach/run.go:95. -/
def V.nothing : V := .err .failure

/-- Map lookup `m[k]` with the two-result form. -/
def lookup (kvs : List (Bytes × V)) (k : Bytes) : Option V :=
  match kvs with
  | [] => none
  | (k', v) :: r => if k' = k then some v else lookup r k

/-- A Go slice of JSON values that may be nil: `none` is nil. -/
abbrev GoSlice := Option (List V)
/-- The elements of a slice (none if nil). -/
def GoSlice.elems (s : GoSlice) : List V := s.getD []
/-- `append(s, v)`: never nil. -/
def GoSlice.append (s : GoSlice) (v : V) : GoSlice := some (s.elems ++ [v])
/-- `append(s, vs...)` done one element at a time by a `for` loop: `s` itself when `vs` is empty. -/
def GoSlice.appendAll (s : GoSlice) (vs : List V) : GoSlice :=
  match vs with
  | [] => s
  | _ => some (s.elems ++ vs)

/-- The iteration orders used by one run of a map-iterating operation.  For the map found at a given
location of the traversal and its number of members `n`, a list of the numbers `0..n-1`: the order in
which `range` yields the members. -/
abbrev Ord := (location : List Nat) → (n : Nat) → List Nat

/-- All the iteration orders of one evaluation: a fresh, arbitrary `Ord` for each operation that
iterates over maps (Go randomises every `range` over a map independently). -/
abbrev Oracle := Nat → Ord

/-- Every `range` yields each member of the map exactly once. -/
def Ord.Valid (o : Ord) : Prop := ∀ loc n, (o loc n).Perm (List.range n)

/-- An oracle is valid if each of its iteration orders is. -/
def Oracle.Valid (o : Oracle) : Prop := ∀ t, Ord.Valid (o t)

/-- The oracle that iterates in list order. -/
def Oracle.id : Oracle := fun _ _ n => List.range n

/-- The elements of `xs` in the order given by `p`. -/
def permute {α : Type} (p : List Nat) (xs : List α) : List α := p.filterMap (xs[·]?)

/-- External behaviour the evaluator relies on (Go standard library), as parameters:
every theorem holds for all of them unless it names an assumption. -/
structure Env where
  /-- `strconv.ParseFloat(s, 64)` of a text that is not a decimal number: the bits below the sign, or an error. -/
  parseOther : Bytes → Option Nat
  /-- `regexp.Compile(s)` succeeds. -/
  reValid : Bytes → Bool
  /-- `re.MatchString(s)` for the compiled pattern. -/
  reMatch : Bytes → Bytes → Bool
  /-- `re.Split(s, -1)` for the compiled pattern. -/
  reSplit : Bytes → Bytes → List Bytes
  /-- `int64(f)` for NaN and values out of range (implementation-specific in Go). -/
  f2iOut : F64 → Int64
  /-- `strconv.IsPrint` for runes that are not ASCII. -/
  isPrint : Nat → Bool
  /-- The message of the error of `regexp.Compile(s)`. -/
  reError : Bytes → Bytes
  /-- The message of the error of `strconv.ParseFloat(s, 64)`. -/
  numError : Bytes → Bytes
  /-- What `%#v` writes for an empty slice or map (which may be nil) and for a pointer inside another value (an address). -/
  goOpaque : V → Bytes

/-- `strconv.ParseFloat(s, 64)`; `none` is an error.  A minus sign makes the result negative (or -0). -/
def Env.parseFloat (env : Env) (s : Bytes) : Option F64 :=
  match decimal? (signed s).2 with
  | some (m, e) => ofDecimal (signed s).1 m e
  | none => (env.parseOther s).map (F64.mk' (signed s).1)

end JP
