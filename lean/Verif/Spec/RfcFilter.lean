import Verif.Spec.Rfc
import Verif.Spec.JsonEq
import Verif.Spec.Js
/-!
Queries with filters as in RFC 9535 (JSONPath): comparisons of singular queries and literals, tests for existence of a
singular query, and `!`, `&&` and `||`.  Section numbers are those of the RFC.
-/
namespace JP.Rfc
open Spec

/-- Segments of singular queries (2.3.5.1): `.name`, `["name"]` and `[index]`. -/
inductive Single where
  | dot (s : Bytes)
  | name (s : Bytes)
  | index (i : Int)
  deriving DecidableEq

/-- What it selects by. -/
def Single.selector : Single → Selector
  | .dot s | .name s => .name s
  | .index i => .index i

/-- Singular queries (2.3.5.1): from the root (`$`) or from the current node (`@`). -/
structure Singular where
  fromRoot : Bool
  segs : List Single

/-- Literals (2.3.5.1); of the numbers only integers. -/
inductive Lit where
  | null
  | bool (b : Bool)
  | int (i : Int)
  | str (s : Bytes)

/-- Comparables (2.3.5.1), without functions. -/
inductive Operand where
  | lit (l : Lit)
  | query (q : Singular)

/-- Operators of comparisons (2.3.5.1). -/
inductive CompOp where
  | eq | ne | lt | le | gt | ge
  deriving DecidableEq

/-- Logical expressions (2.3.5.1), without functions. -/
inductive Logical where
  | test (q : Singular)
  | compare (op : CompOp) (a b : Operand)
  | not (e : Logical)
  | and (a b : Logical)
  | or (a b : Logical)

/-! ## Semantics -/

/-- The value of a singular query, or none if it selects no node. -/
def Singular.Value (root dot : V) (q : Singular) (o : Option V) : Prop :=
  Gives (if q.fromRoot then root else dot) (q.segs.map fun s => .child [s.selector]) o.toList

/-- The value of a literal. -/
def Lit.value : Lit → V
  | .null => .null
  | .bool b => .bool b
  | .int i => .int (Int64.ofInt i)
  | .str s => .str s

/-- The value of a comparable. -/
inductive Operand.Value (root dot : V) : Operand → Option V → Prop
  | lit (l) : Operand.Value root dot (.lit l) (some l.value)
  | query {q o} : q.Value root dot o → Operand.Value root dot (.query q) o

/-- `<` of 2.3.5.2.2: of two numbers, or of two strings (in UTF-8 the order of bytes is that of characters). -/
inductive Less : V → V → Prop
  | number {a b x y} : IsNum a x → IsNum b y → x < y → Less a b
  | string {s t : Bytes} : s < t → Less (.str s) (.str t)

/-- `==` of 2.3.5.2.2, where either side may be empty. -/
inductive Equal : Option V → Option V → Prop
  | empty : Equal none none
  | value {a b} : JsonEq a b → Equal (some a) (some b)

/-- `<` of 2.3.5.2.2, where either side may be empty. -/
inductive Before : Option V → Option V → Prop
  | value {a b} : Less a b → Before (some a) (some b)

/-- Comparisons (2.3.5.2.2). -/
def CompOp.Holds : CompOp → Option V → Option V → Prop
  | .eq, a, b => Equal a b
  | .ne, a, b => ¬ Equal a b
  | .lt, a, b => Before a b
  | .le, a, b => Before a b ∨ Equal a b
  | .gt, a, b => Before b a
  | .ge, a, b => Before b a ∨ Equal a b

/-- When a logical expression is true (2.3.5.2). -/
def Logical.Holds (root dot : V) : Logical → Prop
  | .test q => ∃ v, q.Value root dot (some v)
  | .compare op a b => ∃ x y, a.Value root dot x ∧ b.Value root dot y ∧ op.Holds x y
  | .not e => ¬ e.Holds root dot
  | .and a b => a.Holds root dot ∧ b.Holds root dot
  | .or a b => a.Holds root dot ∨ b.Holds root dot

/-- What a filter selects from a value: the children for which it is true (2.3.5.2). -/
def Filters (root : V) (e : Logical) (v : V) (l : List V) : Prop :=
  ∃ cs, Children v cs ∧ Keeps (fun c b => b = true ↔ e.Holds root c) cs l

/-- Parts of queries: segments without a filter, and with one alone. -/
inductive Part where
  | plain (seg : Segment)
  | child (e : Logical)
  | descend (e : Logical)

/-- What they select from a value. -/
inductive Part.Applies (root : V) : Part → V → List V → Prop
  | plain {seg v l} : Rfc.Applies seg v l → Part.Applies root (.plain seg) v l
  | child {e v l} : Filters root e v l → Part.Applies root (.child e) v l
  | descend {e v ds ls} : Visits v ds → All2 (fun d l => Filters root e d.2 l) ds ls → Part.Applies root (.descend e) v ls.flatten

/-- The nodelists (here the lists of values) that a query may give (2.1.2). -/
inductive Finds (root : V) : List Part → List V → Prop
  | root : Finds root [] [root]
  | part {q part vs ls} : Finds root q vs → All2 (part.Applies root) vs ls → Finds root (q ++ [part]) ls.flatten

/-! ## Texts -/

/-- Names after a dot are identifiers, and integers are in range. -/
def Single.Valid : Single → Prop
  | .dot s => Ident s
  | .name _ => True
  | .index i => InRange i

/-- All segments are valid. -/
def Singular.Valid (q : Singular) : Prop := ∀ s ∈ q.segs, s.Valid

/-- Integers are in range. -/
def Operand.Valid : Operand → Prop
  | .lit (.int i) => InRange i
  | .lit _ => True
  | .query q => q.Valid

/-- All singular queries and literals are valid. -/
def Logical.Valid : Logical → Prop
  | .test q => q.Valid
  | .compare _ a b => a.Valid ∧ b.Valid
  | .not e => e.Valid
  | .and a b | .or a b => a.Valid ∧ b.Valid

/-- All parts are valid. -/
def Part.Valid : Part → Prop
  | .plain seg => seg.sels ≠ [] ∧ ∀ s ∈ seg.sels, s.Valid
  | .child e | .descend e => e.Valid

/-- A segment of a singular query. -/
def singleText : Single → Bytes
  | .dot s => c! '.' :: s
  | .name s => bracket (writeStr (c! '"') s)
  | .index i => bracket (writeInt i)

/-- A singular query. -/
def singularText (q : Singular) : Bytes := (if q.fromRoot then c! '$' else c! '@') :: (q.segs.map singleText).flatten

/-- A literal. -/
def litText : Lit → Bytes
  | .null => b! "null"
  | .bool true => b! "true"
  | .bool false => b! "false"
  | .int i => writeInt i
  | .str s => writeStr (c! '"') s

/-- A comparable. -/
def operandText : Operand → Bytes
  | .lit l => litText l
  | .query q => singularText q

/-- An operator. -/
def opText : CompOp → Bytes
  | .eq => b! "=="
  | .ne => b! "!="
  | .lt => b! "<"
  | .le => b! "<="
  | .gt => b! ">"
  | .ge => b! ">="

/-- A logical expression; the operands of `!`, `&&` and `||` are in parentheses. -/
def logicalText : Logical → Bytes
  | .test q => singularText q
  | .compare op a b => operandText a ++ (b! " " ++ (opText op ++ (b! " " ++ operandText b)))
  | .not e => c! '!' :: paren (logicalText e)
  | .and a b => paren (logicalText a) ++ (b! " " ++ (b! "&&" ++ (b! " " ++ paren (logicalText b))))
  | .or a b => paren (logicalText a) ++ (b! " " ++ (b! "||" ++ (b! " " ++ paren (logicalText b))))

/-- The ways to write a part. -/
inductive PartText : Part → Bytes → Prop
  | plain {seg t} : SegmentText seg t → PartText (.plain seg) t
  | child (e) : PartText (.child e) (b! "[?" ++ (paren (logicalText e) ++ b! "]"))
  | descend (e) : PartText (.descend e) (b! "..[?" ++ (paren (logicalText e) ++ b! "]"))

/-- A text of a query. -/
def PartsText (q : List Part) (text : Bytes) : Prop := ∃ ts, All2 PartText q ts ∧ text = c! '$' :: ts.flatten

/-! ## Where the code differs -/

/-- A segment of a singular query selects from the value as in the RFC: it is not `.length`; no index is applied to an object
with a member named by its digits; and no name in quotes to an array. -/
def Single.Usual : Single → V → Prop
  | .dot s, _ => s ≠ b! "length"
  | .name _, v => ∀ xs, v ≠ .arr xs
  | .index i, v => ∀ kvs, v = .obj kvs → ∀ x, (writeInt i, x) ∉ kvs

/-- So do all segments of a singular query, where they are applied. -/
def Singular.Usual (root dot : V) (q : Singular) : Prop :=
  ∀ l1 s l2, q.segs = l1 ++ s :: l2 → ∀ v, Singular.Value root dot ⟨q.fromRoot, l1⟩ (some v) → s.Usual v

/-- So do those of comparables. -/
def Operand.Usual (root dot : V) : Operand → Prop
  | .lit _ => True
  | .query q => q.Usual root dot

/-- A string that is taken for no number. -/
def NoNumber (env : Env) (s : Bytes) : Prop := s ≠ [] ∧ env.parseFloat s = none ∧ parseInt s = none

/-- Values of different types for which `==` is false, as in the RFC: null and another; an array and an object; an object and a
number or a string; and a string that is no number and a number or boolean. -/
inductive Unlike (env : Env) : V → V → Prop
  | null {v} : v ≠ .null → Unlike env .null v
  | array {xs kvs} : Unlike env (.arr xs) (.obj kvs)
  | objectNumber {kvs v x} : IsNum v x → Unlike env (.obj kvs) v
  | objectString {kvs s} : Unlike env (.obj kvs) (.str s)
  | stringNumber {s v x} : NoNumber env s → IsNum v x → Unlike env (.str s) v
  | stringBool {s b} : NoNumber env s → Unlike env (.str s) (.bool b)

/-- The values are compared as in the RFC: by `==` and `!=` values of the same kinds, or unlike ones; by the others numbers and strings; and by
`<` and `>` also unlike values. -/
inductive CompOp.Usual (env : Env) : CompOp → V → V → Prop
  | eq {a b} : SameKinds a b ∨ Unlike env a b ∨ Unlike env b a → CompOp.Usual env .eq a b
  | ne {a b} : SameKinds a b ∨ Unlike env a b ∨ Unlike env b a → CompOp.Usual env .ne a b
  | number {op a b x y} : IsNum a x → IsNum b y → SameKinds a b → CompOp.Usual env op a b
  | string {op s t} : CompOp.Usual env op (.str s) (.str t)
  | unlike {op a b} : Unlike env a b ∨ Unlike env b a → CompOp.Usual env op a b

/-- One side may be empty, but not beside null; or both, except for `<=` and `>=`. -/
inductive CompOp.UsualO (env : Env) : CompOp → Option V → Option V → Prop
  | both {op a b} : op.Usual env a b → CompOp.UsualO env op (some a) (some b)
  | left {op b} : b ≠ .null → CompOp.UsualO env op none (some b)
  | right {op a} : a ≠ .null → CompOp.UsualO env op (some a) none
  | neither {op} : op ≠ .le → op ≠ .ge → CompOp.UsualO env op none none

/-- The expression is evaluated as in the RFC: its comparisons are; and what is tested for existence is true (in the sense of
JavaScript) if it exists. -/
def Logical.Usual (env : Env) (root dot : V) : Logical → Prop
  | .test q => q.Usual root dot ∧ ∀ v, q.Value root dot (some v) → ¬ Falsy v ∧ ¬ IsJsonNumber v
  | .compare op a b => a.Usual root dot ∧ b.Usual root dot ∧ ∀ x y, a.Value root dot x → b.Value root dot y → op.UsualO env x y
  | .not e => e.Usual env root dot
  | .and a b | .or a b => a.Usual env root dot ∧ b.Usual env root dot

/-- A part is evaluated as in the RFC, when it is applied to these values. A filter that is applied to values without any children must not select null. -/
def Part.Usual (env : Env) (root : V) : Part → List V → Prop
  | .plain seg, vs => seg.Lone ∧ (∀ i, .index i ∈ seg.sels → ∀ p kvs, At root p (.obj kvs) → ∀ x, (writeInt i, x) ∉ kvs) ∧
      (seg.HasSlice → ∀ v ∈ vs, OnArrays seg v)
  | .child e, vs => (∀ v ∈ vs, ∀ cs, Children v cs → ∀ c ∈ cs, e.Usual env root c) ∧
      (vs ≠ [] → (∀ v ∈ vs, Children v []) → e.Usual env root .null ∧ ¬ e.Holds root .null)
  | .descend _, _ => False

/-- All parts are. -/
def PartsUsual (env : Env) (root : V) (q : List Part) : Prop :=
  ∀ q1 part q2, q = q1 ++ part :: q2 → ∀ vs, Finds root q1 vs → part.Usual env root vs

end JP.Rfc
