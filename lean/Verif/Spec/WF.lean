import Verif.Model.Machine
/-!
Well-formed trees: what the parser can build (`Verif/Proof/ParseWF.lean` proves that it builds nothing
else), and well-formed documents.
-/
namespace JP

/-- Operators with one operand in an expression tree. -/
def Op.isUnary : Op → Bool
  | .neg | .not => true
  | _ => false

/-- Operators with two operands in an expression tree (`.dot` is separate: its right operand is a name). -/
def Op.isBinary : Op → Bool
  | .index | .lt | .le | .eq | .ne | .ge | .gt | .and | .or | .mul | .div | .mod | .add | .sub
  | .in_ | .nin | .match_ => true
  | _ => false

mutual
/-- An expression tree that the parser can build: each operator has the operands it needs; a literal
number carries no sign. -/
inductive Expr.WF : Expr → Prop
  | int (n) : Expr.WF (.int n)
  | float (f) : f.neg? = false → Expr.WF (.float f)
  | str (s) : Expr.WF (.str s)
  | bool (b) : Expr.WF (.bool b)
  | null : Expr.WF .null
  | name (s) : Expr.WF (.name s)
  | current : Expr.WF .current
  | root : Expr.WF .root
  | re (p) : Expr.WF (.re p)
  | unary (op e) : op.isUnary = true → Expr.WF e → Expr.WF (.inner op [e])
  | binary (op a b) : op.isBinary = true → Expr.WF a → Expr.WF b → Expr.WF (.inner op [a, b])
  | dot (a s) : Expr.WF a → Expr.WF (.inner .dot [a, .name s])
  | array (es) : Exprs.WF es → Expr.WF (.inner .array es)
  | call (f es) : Exprs.WF es → Expr.WF (.inner .call (.name f :: es))
/-- All the trees of a list. -/
inductive Exprs.WF : List Expr → Prop
  | nil : Exprs.WF []
  | cons (e es) : Expr.WF e → Exprs.WF es → Exprs.WF (e :: es)
end

/-- An argument of a step. -/
def Val.WF : Val → Prop
  | .expr e => e.WF
  | _ => True

/-- A step that the parser can build. -/
def Step.WF (s : Step) : Prop :=
  (∀ v ∈ s.args, v.WF) ∧
  match s.op with
  | .wild | .nestWild => s.args = []
  | .member | .select | .nestMember | .nestSelect => ∃ v, s.args = [v]
  | .filter | .nestFilter => ∃ e, s.args = [.expr e]
  | .union | .nestUnion => True
  | _ => False

/-- A path that the parser can build. -/
def Path.WF (p : Path) : Prop := ∀ s ∈ p, s.WF

mutual
/-- Number of nodes of an expression tree. -/
def Expr.size : Expr → Nat
  | .inner _ kids => 1 + Exprs.size kids
  | _ => 1
/-- Number of nodes of all the trees of a list. -/
def Exprs.size : List Expr → Nat
  | [] => 0
  | e :: r => e.size + Exprs.size r
end

/-- Number of machine instructions for an argument of a step. -/
def Val.size : Val → Nat
  | .expr e => e.size
  | _ => 1

/-- Number of machine instructions for the arguments of a step. -/
def Vals.size : List Val → Nat
  | [] => 0
  | v :: r => v.size + Vals.size r

/-- Number of machine instructions for a step: a step that is done in a loop has two more. -/
def Step.size (s : Step) : Nat :=
  Vals.size s.args + 1 + match s.op with
    | .nestMember | .nestFilter | .nestSelect | .nestUnion | .nestWild | .filter => 2
    | _ => 0

/-- Number of machine instructions for a path. -/
def Path.size : Path → Nat
  | [] => 0
  | s :: r => s.size + Path.size r

mutual
/-- A document: what a decoder of JSON texts delivers.  Object members have distinct names, and a Go
slice or map has fewer than 2^63 entries; none of the evaluator's own kinds of values occurs. -/
def V.WF : V → Prop
  | .null | .bool _ | .gint _ | .int _ | .float _ | .str _ | .num _ => True
  | .arr xs => xs.length < 2 ^ 63 ∧ WFs xs
  | .obj kvs => kvs.length < 2 ^ 63 ∧ (kvs.map Prod.fst).Nodup ∧ WFm kvs
  | .name _ | .re _ | .slice _ | .err _ => False
/-- All elements. -/
def WFs : List V → Prop
  | [] => True
  | v :: r => v.WF ∧ WFs r
/-- All members. -/
def WFm : List (Bytes × V) → Prop
  | [] => True
  | (_, v) :: r => v.WF ∧ WFm r
end

end JP
