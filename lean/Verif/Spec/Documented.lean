import Verif.Spec.Lexical
/-!
The documented grammar: README.md:13-51 and syntax/doc.go:14-51, rule by rule.

The two texts differ in three places, and where they do this is the larger language of the two, or the one
of README.md: a unary operator may stand before any expression (`e ::= unary-op e`; syntax/doc.go puts it
into `primary1`), and both `~` (README.md) and `=~` (syntax/doc.go) are operators. The repetition missing
in `union-element ("," union-element)` is taken to be meant.

Over the tokens of `Spec.Lexical`, and with the tree that each derivation describes. The rules for
expressions say nothing of the priorities of the operators, so an expression has several derivations.
-/
namespace JP.Spec

/-- `binary-op ::= "+" | "-" | "*" | "/" | "%" | "<" | ">" | ">=" | "<=" | "==" | "!=" | "~" | "=~" | "in" | "nin" | "&&" | "||"` -/
inductive DBinary : Lexeme → Op → Prop
  | add : DBinary (.plain (.ch (c! '+'))) .add
  | sub : DBinary (.plain (.ch (c! '-'))) .sub
  | mul : DBinary (.plain (.ch (c! '*'))) .mul
  | div : DBinary (.plain (.ch (c! '/'))) .div
  | mod : DBinary (.plain (.ch (c! '%'))) .mod
  | lt : DBinary (.plain (.ch (c! '<'))) .lt
  | gt : DBinary (.plain (.ch (c! '>'))) .gt
  | ge : DBinary (.plain .ge) .ge
  | le : DBinary (.plain .le) .le
  | eq : DBinary (.plain .eq) .eq
  | ne : DBinary (.plain .ne) .ne
  | tilde : DBinary (.plain (.ch (c! '~'))) .match_
  | match_ : DBinary (.plain .match_) .match_
  | in_ : DBinary (nameTok (b! "in")) .in_
  | nin : DBinary (nameTok (b! "nin")) .nin
  | and : DBinary (.plain .and) .and
  | or : DBinary (.plain .or) .or

/-- `unary-op ::= "-" | "!"` -/
inductive DUnary : Lexeme → Op → Prop
  | neg : DUnary (.plain (.ch (c! '-'))) .neg
  | not : DUnary (.plain (.ch (c! '!'))) .not

/-- What an identifier in an expression stands for. -/
def ident (s : Bytes) : Expr :=
  if s = b! "true" then .bool true
  else if s = b! "false" then .bool false
  else if s = b! "null" then .null
  else .name s

mutual
/-- `e ::= primary | e binary-op e | unary-op e` -/
inductive DExpr (valid : Bytes → Bool) : List Token → Expr → Prop
  | primary (ts e) : DPrimary valid ts e → DExpr valid ts e
  | binary (ts a lx op us b) : DExpr valid ts a → DBinary lx op → DExpr valid us b →
      DExpr valid (ts ++ .expr lx :: us) (.inner op [a, b])
  | unary (lx op ts e) : DUnary lx op → DExpr valid ts e → DExpr valid (.expr lx :: ts) (.inner op [e])
/-- `primary ::= primary1 ("(" e-list? ")" | "[" e "]" | "." identifier)*` -/
inductive DPrimary (valid : Bytes → Bool) : List Token → Expr → Prop
  | primary1 (ts e) : DPrimary1 valid ts e → DPrimary valid ts e
  | call (ts f us es) : DPrimary valid ts f → DList? valid us es →
      DPrimary valid (ts ++ .x (c! '(') :: (us ++ [.x (c! ')')])) (.inner .call (f :: es))
  | index (ts e us i) : DPrimary valid ts e → DExpr valid us i →
      DPrimary valid (ts ++ .x (c! '[') :: (us ++ [.x (c! ']')])) (.inner .index [e, i])
  | dot (ts e s) : DPrimary valid ts e → DPrimary valid (ts ++ [.x (c! '.'), .expr (nameTok s)]) (.inner .dot [e, .name s])
/-- `primary1 ::= identifier | integer | real | string | "/" re "/" | "@" | "$" | "(" e ")" | "[" e-list? "]"` -/
inductive DPrimary1 (valid : Bytes → Bool) : List Token → Expr → Prop
  | ident (s) : DPrimary1 valid [.expr (nameTok s)] (ident s)
  | int (n) : DPrimary1 valid [.expr (intTok n)] (.int n)
  | real (f) : DPrimary1 valid [.expr (realTok f)] (.float f)
  | str (s) : DPrimary1 valid [.expr (strTok s)] (.str s)
  | re (s) : valid s = true → DPrimary1 valid [.x (c! '/'), .regexp s] (.re s)
  | current : DPrimary1 valid [.x (c! '@')] .current
  | root : DPrimary1 valid [.x (c! '$')] .root
  | paren (ts e) : DExpr valid ts e → DPrimary1 valid (.x (c! '(') :: (ts ++ [.x (c! ')')])) e
  | array (ts es) : DList? valid ts es → DPrimary1 valid (.x (c! '[') :: (ts ++ [.x (c! ']')])) (.inner .array es)
/-- `e-list?` -/
inductive DList? (valid : Bytes → Bool) : List Token → List Expr → Prop
  | none : DList? valid [] []
  | some (ts es) : DList valid ts es → DList? valid ts es
/-- `e-list ::= e ("," e)*` -/
inductive DList (valid : Bytes → Bool) : List Token → List Expr → Prop
  | one (ts e) : DExpr valid ts e → DList valid ts [e]
  | cons (ts e us es) : DExpr valid ts e → DList valid us es → DList valid (ts ++ .x (c! ',') :: us) (e :: es)
end

/-- `expr ::= "(" script-expression ")"`; the closing parenthesis is read by the rules for expressions. -/
inductive DParen (valid : Bytes → Bool) : List Token → Expr → Prop
  | mk (ts e) : DExpr valid ts e → DParen valid (.p (c! '(') :: (ts ++ [.x (c! ')')])) e

/-- `filter ::= "?(" script-expression ")"` -/
inductive DFilter (valid : Bytes → Bool) : List Token → Expr → Prop
  | mk (ts e) : DExpr valid ts e → DFilter valid (.path (.plain .filter) :: (ts ++ [.x (c! ')')])) e

/-- `start ::= signed-integer | expr`, and the same for `end` and `stride`. -/
inductive DBound (valid : Bytes → Bool) : List Token → Bound → Prop
  | int (n) : DBound valid [.path (intTok n)] (.int n)
  | expr (ts e) : DParen valid ts e → DBound valid ts (.expr e)

/-- `start?` -/
inductive DBound? (valid : Bytes → Bool) : List Token → Option Bound → Prop
  | none : DBound? valid [] none
  | some (ts b) : DBound valid ts b → DBound? valid ts (some b)

/-- `array-slice ::= start? ":" end? (":" stride?)?` -/
inductive DSlice (valid : Bytes → Bool) : List Token → Slice → Prop
  | two (ts a us b) : DBound? valid ts a → DBound? valid us b → DSlice valid (ts ++ .p (c! ':') :: us) ⟨a, b, none⟩
  | three (ts a us b vs c) : DBound? valid ts a → DBound? valid us b → DBound? valid vs c →
      DSlice valid (ts ++ .p (c! ':') :: (us ++ .p (c! ':') :: vs)) ⟨a, b, c⟩

/-- `union-element ::= array-index | string-literal | array-slice` -/
inductive DElem (valid : Bytes → Bool) : List Token → Val → Prop
  | index (n) : DElem valid [.path (intTok n)] (.int n)
  | str (s) : DElem valid [.path (strTok s)] (.str s)
  | slice (ts s) : DSlice valid ts s → DElem valid ts (.slice s)

/-- `union-element ("," union-element)*` -/
inductive DElems (valid : Bytes → Bool) : List Token → List Val → Prop
  | one (ts v) : DElem valid ts v → DElems valid ts [v]
  | cons (ts v us vs) : DElem valid ts v → DElems valid us vs → DElems valid (ts ++ .p (c! ',') :: us) (v :: vs)

/-- `subscript ::= subscript-expression | union-element ("," union-element)*` and
`subscript-expression ::= "*" | expr | filter`: the operator of the step and its operands. -/
inductive DSub (valid : Bytes → Bool) : List Token → Op → List Val → Prop
  | wild : DSub valid [.p (c! '*')] .wild []
  | expr (ts e) : DParen valid ts e → DSub valid ts .select [.expr e]
  | filter (ts e) : DFilter valid ts e → DSub valid ts .filter [.expr e]
  | one (ts v) : DElems valid ts [v] → DSub valid ts .select [v]
  | union (ts vs) : DElems valid ts vs → 2 ≤ vs.length → DSub valid ts .union vs

/-- `member ::= "*" | identifier | expr | signed-integer` -/
inductive DMember (valid : Bytes → Bool) : List Token → Op → List Val → Prop
  | wild : DMember valid [.p (c! '*')] .wild []
  | ident (s) : DMember valid [.path (nameTok s)] .member [.name s]
  | expr (ts e) : DParen valid ts e → DMember valid ts .member [.expr e]
  | int (n) : DMember valid [.path (intTok n)] .member [.int n]

/-- The operator for a step after two dots. -/
def nested : Op → Op
  | .wild => .nestWild
  | .filter => .nestFilter
  | .select => .nestSelect
  | .union => .nestUnion
  | .member => .nestMember
  | op => op

/-- `step ::= "." member | ".." member | "[" subscript "]" | ".." "[" subscript "]"` -/
inductive DStep (valid : Bytes → Bool) : List Token → Step → Prop
  | member (ts op vs) : DMember valid ts op vs → DStep valid (.p (c! '.') :: ts) ⟨op, vs⟩
  | nestMember (ts op vs) : DMember valid ts op vs → DStep valid (.path (.plain .nest) :: ts) ⟨nested op, vs⟩
  | sub (ts op vs) : DSub valid ts op vs → DStep valid (.p (c! '[') :: (ts ++ [.p (c! ']')])) ⟨op, vs⟩
  | nestSub (ts op vs) : DSub valid ts op vs →
      DStep valid (.path (.plain .nest) :: .p (c! '[') :: (ts ++ [.p (c! ']')])) ⟨nested op, vs⟩

/-- `step*` -/
inductive DSteps (valid : Bytes → Bool) : List Token → Path → Prop
  | nil : DSteps valid [] []
  | cons (ts s us p) : DStep valid ts s → DSteps valid us p → DSteps valid (ts ++ us) (s :: p)

/-- `path ::= "$" step*` -/
inductive DPath (valid : Bytes → Bool) : List Token → Path → Prop
  | mk (ts p) : DSteps valid ts p → DPath valid (.p (c! '$') :: ts) p

end JP.Spec
