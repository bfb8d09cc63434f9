import Verif.Spec.Layout
import Verif.Spec.Literals
import Verif.Spec.Float
/-!
The trees that can be written, and a way to write them.
-/
namespace JP.Spec

/-! ## Trees -/

/-- An identifier in an expression. -/
def Ident (s : Bytes) : Prop := ∃ c w, s = c :: w ∧ Letter c ∧ All LetterDigit w
/-- An identifier in a path. -/
def PathIdent (s : Bytes) : Prop := ∃ c w, s = c :: w ∧ Letter c ∧ All LetterDigitDash w

/-- A binary operator. -/
def Binary (op : Op) : Prop := ∃ w, OpText w op

mutual
/-- The trees of expressions. If `lim`, no regular expression ends with a backslash. -/
inductive Tree (env : Env) (lim : Bool) : Expr → Prop
  | int (n : Int64) : 0 ≤ n.toInt → Tree env lim (.int n)
  | float (f : F64) : f.Finite → f.neg? = false → Tree env lim (.float f)
  | str (s) : Tree env lim (.str s)
  | bool (b) : Tree env lim (.bool b)
  | null : Tree env lim .null
  | name (s) : Ident s → s ≠ b! "true" → s ≠ b! "false" → s ≠ b! "null" → Tree env lim (.name s)
  | current : Tree env lim .current
  | root : Tree env lim .root
  | re (s) : env.reValid s = true → (lim = true → s.getLast? ≠ some (c! '\\')) → Tree env lim (.re s)
  | unary (op e) : op = .neg ∨ op = .not → Tree env lim e → Tree env lim (.inner op [e])
  | binary (op a b) : Binary op → Tree env lim a → Tree env lim b → Tree env lim (.inner op [a, b])
  | call (f es) : Tree env lim (.name f) → Trees env lim es → Tree env lim (.inner .call (.name f :: es))
  | index (e i) : Tree env lim e → Tree env lim i → Tree env lim (.inner .index [e, i])
  | dot (e s) : Tree env lim e → Ident s → Tree env lim (.inner .dot [e, .name s])
  | array (es) : Trees env lim es → Tree env lim (.inner .array es)
/-- Lists of them. -/
inductive Trees (env : Env) (lim : Bool) : List Expr → Prop
  | nil : Trees env lim []
  | cons (e es) : Tree env lim e → Trees env lim es → Trees env lim (e :: es)
end

/-- The integers of paths; if `lim`, without the two least. -/
def TreeInt (lim : Bool) (n : Int64) : Prop := lim = true → -(2 ^ 63 - 1) < n.toInt

/-- Bounds of slices. -/
inductive TreeBound (env : Env) (lim : Bool) : Bound → Prop
  | int (n) : TreeInt lim n → TreeBound env lim (.int n)
  | expr (e) : Tree env lim e → TreeBound env lim (.expr e)

/-- Elements of unions. -/
inductive TreeElem (env : Env) (lim : Bool) : Val → Prop
  | int (n) : TreeInt lim n → TreeElem env lim (.int n)
  | str (s) : TreeElem env lim (.str s)
  | name (s) : PathIdent s → TreeElem env lim (.name s)
  | slice (a b c) : (∀ x ∈ a, TreeBound env lim x) → (∀ x ∈ b, TreeBound env lim x) → (∀ x ∈ c, TreeBound env lim x) →
      TreeElem env lim (.slice ⟨a, b, c⟩)

/-- What may be after a dot. -/
inductive TreeMember (env : Env) (lim : Bool) : Val → Prop
  | int (n) : TreeInt lim n → TreeMember env lim (.int n)
  | name (s) : PathIdent s → TreeMember env lim (.name s)
  | expr (e) : Tree env lim e → TreeMember env lim (.expr e)

/-- The single values in brackets. -/
inductive TreeKey (env : Env) (lim : Bool) : Val → Prop
  | elem (v) : TreeElem env lim v → TreeKey env lim v
  | expr (e) : Tree env lim e → TreeKey env lim (.expr e)

/-- The steps of paths. -/
inductive TreeStep (env : Env) (lim : Bool) : Step → Prop
  | wild : TreeStep env lim ⟨.wild, []⟩
  | nestWild : TreeStep env lim ⟨.nestWild, []⟩
  | filter (e) : Tree env lim e → TreeStep env lim ⟨.filter, [.expr e]⟩
  | nestFilter (e) : Tree env lim e → TreeStep env lim ⟨.nestFilter, [.expr e]⟩
  | member (v) : TreeMember env lim v → TreeStep env lim ⟨.member, [v]⟩
  | nestMember (v) : TreeMember env lim v → TreeStep env lim ⟨.nestMember, [v]⟩
  | select (v) : TreeKey env lim v → TreeStep env lim ⟨.select, [v]⟩
  | nestSelect (v) : TreeKey env lim v → TreeStep env lim ⟨.nestSelect, [v]⟩
  | union (vs) : 2 ≤ vs.length → (∀ v ∈ vs, TreeElem env lim v) → TreeStep env lim ⟨.union, vs⟩
  | nestUnion (vs) : 2 ≤ vs.length → (∀ v ∈ vs, TreeElem env lim v) → TreeStep env lim ⟨.nestUnion, vs⟩

/-- The trees of paths. -/
def TreePath (env : Env) (lim : Bool) (p : Path) : Prop := ∀ s ∈ p, TreeStep env lim s

/-! ## Writing -/

/-- Decimal digits. -/
def writeNat (n : Nat) : Bytes :=
  if n < 10 then [UInt8.ofNat (48 + n)] else writeNat (n / 10) ++ [UInt8.ofNat (48 + n % 10)]

/-- An integer with its sign. -/
def writeInt (z : Int) : Bytes := if z < 0 then c! '-' :: writeNat z.natAbs else writeNat z.natAbs

/-- A floating-point number, exactly: `m * 2^e` is `m * 2^e` or `m * 5^-e / 10^-e`. -/
def writeReal (f : F64) : Bytes :=
  let m := if f.mag < 2 ^ 52 then f.mag else 2 ^ 52 + f.mag % 2 ^ 52
  let b := if f.mag < 2 ^ 52 then 1 else f.mag / 2 ^ 52
  if 1075 ≤ b then writeNat (m * 2 ^ (b - 1075)) ++ b! ".0"
  else writeNat (m * 5 ^ (1075 - b)) ++ (b! ".e-" ++ writeNat (1075 - b))

/-- A regular expression between slashes. -/
def writeRe (s : Bytes) : Bytes := c! '/' :: (s.flatMap (fun c => if c = c! '/' then b! "\\/" else [c]) ++ b! "/")

/-- Operators. -/
def writeOp : Op → Bytes
  | .or => b! "||"
  | .and => b! "&&"
  | .eq => b! "=="
  | .ne => b! "!="
  | .lt => b! "<"
  | .le => b! "<="
  | .gt => b! ">"
  | .ge => b! ">="
  | .match_ => b! "=~"
  | .in_ => b! "in"
  | .nin => b! "nin"
  | .add => b! "+"
  | .sub => b! "-"
  | .mul => b! "*"
  | .div => b! "/"
  | .mod => b! "%"
  | _ => []

/-- In parentheses. -/
def paren (w : Bytes) : Bytes := c! '(' :: (w ++ b! ")")

/-- An operator with its operands, every one in parentheses. -/
def writeInner : Op → List Bytes → Bytes
  | .neg, [a] => c! '-' :: paren a
  | .not, [a] => c! '!' :: paren a
  | .call, f :: as => f ++ c! '(' :: (commas as ++ b! ")")
  | .index, [a, i] => paren a ++ c! '[' :: (i ++ b! "]")
  | .dot, [a, s] => paren a ++ c! '.' :: s
  | .array, as => c! '[' :: (commas as ++ b! "]")
  | op, [a, b] => paren a ++ (b! " " ++ (writeOp op ++ (b! " " ++ paren b)))
  | _, _ => []

mutual
/-- An expression. -/
def writeExpr : Expr → Bytes
  | .int n => writeNat n.toInt.natAbs
  | .float f => writeReal f
  | .str s => writeStr (c! '"') s
  | .bool true => b! "true"
  | .bool false => b! "false"
  | .null => b! "null"
  | .name s => s
  | .current => b! "@"
  | .root => b! "$"
  | .re s => writeRe s
  | .inner op es => writeInner op (writeExprs es)
/-- Each of a list. -/
def writeExprs : List Expr → List Bytes
  | [] => []
  | e :: es => writeExpr e :: writeExprs es
end

/-- A bound of a slice. -/
def writeBound : Option Bound → Bytes
  | none => []
  | some (.int n) => writeInt n.toInt
  | some (.expr e) => paren (writeExpr e)

/-- An operand of a step. -/
def writeVal : Val → Bytes
  | .name s => s
  | .int n => writeInt n.toInt
  | .str s => writeStr (c! '"') s
  | .expr e => paren (writeExpr e)
  | .slice s => writeBound s.start ++ c! ':' :: (writeBound s.stop ++
      match s.stride with
      | none => []
      | some b => c! ':' :: writeBound (some b))

/-- In brackets. -/
def bracket (w : Bytes) : Bytes := c! '[' :: (w ++ b! "]")

/-- A step. -/
def writeStep : Step → Bytes
  | ⟨.wild, _⟩ => b! "[*]"
  | ⟨.nestWild, _⟩ => b! "..[*]"
  | ⟨.filter, [.expr e]⟩ => b! "[?(" ++ (writeExpr e ++ b! ")]")
  | ⟨.nestFilter, [.expr e]⟩ => b! "..[?(" ++ (writeExpr e ++ b! ")]")
  | ⟨.member, [v]⟩ => b! "." ++ writeVal v
  | ⟨.nestMember, [v]⟩ => b! ".." ++ writeVal v
  | ⟨.select, [v]⟩ => bracket (writeVal v)
  | ⟨.nestSelect, [v]⟩ => b! ".." ++ bracket (writeVal v)
  | ⟨.union, vs⟩ => bracket (commas (vs.map (writeVal)))
  | ⟨.nestUnion, vs⟩ => b! ".." ++ bracket (commas (vs.map (writeVal)))
  | _ => []

/-- A path. -/
def writePath (p : Path) : Bytes := c! '$' :: p.flatMap (writeStep)

end JP.Spec
