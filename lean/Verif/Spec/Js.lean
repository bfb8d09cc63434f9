import Verif.Spec.Ops
/-!
JavaScript's view of simple values: truthiness and abstract equality (ECMA-262 5.1, 9.2 and 11.9.3), written
down independently of the code, with 64-bit integers as an additional, exact kind of number.
-/
namespace JP.Spec

/-- The falsy values.  (`json.Number` values, which documents decoded in the ordinary way do not contain,
are not covered.) -/
inductive Falsy : V → Prop
  | null : Falsy .null
  | failed (e : Err) : Falsy (.err e)
  | false : Falsy (.bool false)
  | gint : Falsy (.gint 0)
  | int : Falsy (.int 0)
  | nan (f : F64) : f.isNaN = true → Falsy (.float f)
  | zero : Falsy (.float .zero)
  | negZero : Falsy (.float (.fneg .zero))
  | empty : Falsy (.str [])

/-- Is it a `json.Number`? -/
def IsJsonNumber (v : V) : Prop := ∃ s, v = .num s

/-- A number: an exact integer or a float. -/
inductive Number where
  | int (n : Int)
  | float (f : F64)

/-- As a float. -/
def Number.toF64 : Number → F64
  | .int n => .ofInt n
  | .float f => f

/-- Are two numbers equal?  Integers are compared exactly; NaN equals nothing. -/
def Number.Eq : Number → Number → Prop
  | .int m, .int n => m = n
  | x, y => x.toF64.feq y.toF64 = true

/-- The simple values: what a leaf of a document can be, and failure. -/
inductive Simple where
  | undefined
  | null
  | bool (b : Bool)
  | number (n : Number)
  | string (s : Bytes)

/-- Which simple value is it, if any? -/
def simple? : V → Option Simple
  | .err _ => some .undefined
  | .null => some .null
  | .bool b => some (.bool b)
  | .gint n | .int n => some (.number (.int n.toInt))
  | .float f => some (.number (.float f))
  | .str s => some (.string s)
  | _ => none

/-- JavaScript's ToNumber of a string, except that the text of a 64-bit integer denotes that integer exactly
and that the syntax of numbers is Go's. -/
def stringToNumber (env : Env) (s : Bytes) : Number :=
  if s = [] then .int 0
  else match parseInt s with
    | some n => .int n.toInt
    | none => match env.parseFloat s with
      | some f => .float f
      | none => .float .nan

/-- JavaScript's ToNumber of a boolean. -/
def boolToNumber (b : Bool) : Number := .int (if b then 1 else 0)

/-- JavaScript's abstract equality on simple values: 11.9.3. -/
def JsEq (env : Env) : Simple → Simple → Prop
  -- (1), (2), (3)
  | .undefined, .undefined | .null, .null | .undefined, .null | .null, .undefined => True
  | .number x, .number y => x.Eq y
  | .string s, .string t => s = t
  | .bool a, .bool b => a = b
  -- (4), (5)
  | .number x, .string t => x.Eq (stringToNumber env t)
  | .string s, .number y => (stringToNumber env s).Eq y
  -- (6), (7)
  | .bool a, .number y => (boolToNumber a).Eq y
  | .number x, .bool b => x.Eq (boolToNumber b)
  | .bool a, .string t => (boolToNumber a).Eq (stringToNumber env t)
  | .string s, .bool b => (stringToNumber env s).Eq (boolToNumber b)
  | _, _ => False

/-- The number that a value stands for in arithmetic: booleans count as 0 and 1. -/
def arithmetic? : V → Option Number
  | .bool b => some (boolToNumber b)
  | .gint n | .int n => some (.int n.toInt)
  | .float f => some (.float f)
  | _ => none

/-- Not a NaN. -/
def Number.Ordered (x : Number) : Prop := x.toF64.isNaN = false

/-- Is one number less than another?  Two integers are compared exactly. -/
def Number.Lt : Number → Number → Prop
  | .int m, .int n => m < n
  | x, y => x.toF64.flt y.toF64 = true

/-- A 64-bit two's complement integer. -/
def wrap (n : Int) : V := .int (Int64.ofInt n)

/-- Arithmetic on two numbers: exact and wrapped for two integers, else in floating point. -/
def compute (intf : Int → Int → Int) (floatf : F64 → F64 → F64) : Number → Number → V
  | .int m, .int n => wrap (intf m n)
  | x, y => .float (floatf x.toF64 y.toF64)

/-- Is it a zero? -/
def Number.isZero : Number → Bool
  | .int n => n == 0
  | .float f => f.feq .zero

/-- `strconv.ParseFloat` reads the text of an integer as that integer, rounded. -/
def ReadsIntegers (env : Env) : Prop :=
  ∀ s n, parseInt s = some n → ∃ f, env.parseFloat s = some f ∧ f.feq (.ofInt n.toInt) = true

/-- No NaN anywhere, and only the kinds of value that decoding a document gives. -/
inductive Ordinary : V → Prop
  | null : Ordinary .null
  | bool (b : Bool) : Ordinary (.bool b)
  | gint (n : Int64) : Ordinary (.gint n)
  | int (n : Int64) : Ordinary (.int n)
  | float (f : F64) : f.isNaN = false → Ordinary (.float f)
  | str (s : Bytes) : Ordinary (.str s)
  | arr (xs : List V) : (∀ x ∈ xs, Ordinary x) → Ordinary (.arr xs)
  | obj (kvs : List (Bytes × V)) : (∀ kv ∈ kvs, Ordinary kv.2) → Ordinary (.obj kvs)

/-- The members of every object, at any depth, have distinct names: true of every Go map. -/
inductive KeysDistinct : V → Prop
  | arr (xs : List V) : (∀ x ∈ xs, KeysDistinct x) → KeysDistinct (.arr xs)
  | obj (kvs : List (Bytes × V)) : (kvs.map Prod.fst).Nodup → (∀ kv ∈ kvs, KeysDistinct kv.2) → KeysDistinct (.obj kvs)
  | other (v : V) : (∀ xs, v ≠ .arr xs) → (∀ kvs, v ≠ .obj kvs) → KeysDistinct v

/-- No object, at any depth, has a member that is null (or a failure, which no document has). -/
inductive NoNullMembers : V → Prop
  | arr (xs : List V) : (∀ x ∈ xs, NoNullMembers x) → NoNullMembers (.arr xs)
  | obj (kvs : List (Bytes × V)) : (∀ kv ∈ kvs, NoNullMembers kv.2) → (∀ kv ∈ kvs, kv.2 ≠ .null ∧ ¬ Failed kv.2) →
      NoNullMembers (.obj kvs)
  | other (v : V) : (∀ xs, v ≠ .arr xs) → (∀ kvs, v ≠ .obj kvs) → NoNullMembers v

end JP.Spec
