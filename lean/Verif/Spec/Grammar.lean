import Verif.Model.Lex
/-!
The grammar of paths and script expressions, over tokens.

A path and the expressions in it have different tokens, so each token here also says by which of the two
sets of rules it is read (for example, `a-b` is one token in a path and three in an expression).
-/
namespace JP.Spec

/-- A token, by the rules for paths or for expressions; or the text of a regular expression together with
the slash that ends it, which follows the token `/`. -/
inductive Token where
  | path (lx : Lexeme)
  | expr (lx : Lexeme)
  | regexp (s : Bytes)

/-- A single character in a path. -/
abbrev Token.p (c : UInt8) : Token := .path (.plain (.ch c))
/-- A single character in an expression. -/
abbrev Token.x (c : UInt8) : Token := .expr (.plain (.ch c))

/-- A token with a name in it. -/
abbrev nameTok (s : Bytes) : Lexeme := ⟨.id, .str s, none⟩
/-- A token with a string in it. -/
abbrev strTok (s : Bytes) : Lexeme := ⟨.string, .str s, none⟩
/-- A token with an integer in it. -/
abbrev intTok (n : Int64) : Lexeme := ⟨.int, .int n, none⟩
/-- A token with a number in it. -/
abbrev realTok (f : F64) : Lexeme := ⟨.real, .float f, none⟩

/-- The binary operators with their priorities. -/
inductive OpTok : Lexeme → Op → Nat → Prop
  | or : OpTok (.plain .or) .or 0
  | and : OpTok (.plain .and) .and 1
  | eq : OpTok (.plain .eq) .eq 2
  | ne : OpTok (.plain .ne) .ne 2
  | lt : OpTok (.plain (.ch (c! '<'))) .lt 3
  | le : OpTok (.plain .le) .le 3
  | gt : OpTok (.plain (.ch (c! '>'))) .gt 3
  | ge : OpTok (.plain .ge) .ge 3
  | match_ : OpTok (.plain .match_) .match_ 3
  | tilde : OpTok (.plain (.ch (c! '~'))) .match_ 3
  | in_ : OpTok (nameTok (b! "in")) .in_ 3
  | nin : OpTok (nameTok (b! "nin")) .nin 3
  | add : OpTok (.plain (.ch (c! '+'))) .add 4
  | sub : OpTok (.plain (.ch (c! '-'))) .sub 4
  | mul : OpTok (.plain (.ch (c! '*'))) .mul 5
  | div : OpTok (.plain (.ch (c! '/'))) .div 5
  | mod : OpTok (.plain (.ch (c! '%'))) .mod 5

mutual
/-- Expressions whose operators outside brackets have at least the given priority, and associate to the
left: `e ::= unary | e op e`. -/
inductive GExpr (valid : Bytes → Bool) : Nat → List Token → Expr → Prop
  | unary (n ts e) : GUnary valid ts e → GExpr valid n ts e
  | binary (n ts₁ a lx op k ts₂ b) : n ≤ k → OpTok lx op k → GExpr valid k ts₁ a → GExpr valid (k + 1) ts₂ b →
      GExpr valid n (ts₁ ++ .expr lx :: ts₂) (.inner op [a, b])
/-- `unary ::= ("-" | "!")* primary` -/
inductive GUnary (valid : Bytes → Bool) : List Token → Expr → Prop
  | primary (ts e) : GPrimary valid ts e → GUnary valid ts e
  | neg (ts e) : GUnary valid ts e → GUnary valid (.x (c! '-') :: ts) (.inner .neg [e])
  | not (ts e) : GUnary valid ts e → GUnary valid (.x (c! '!') :: ts) (.inner .not [e])
/-- `primary ::= atom | primary "(" list ")" | primary "[" e "]" | primary "." identifier` -/
inductive GPrimary (valid : Bytes → Bool) : List Token → Expr → Prop
  | atom (ts e) : GAtom valid ts e → GPrimary valid ts e
  | call (ts f us es) : GPrimary valid ts (.name f) → GList valid us es →
      GPrimary valid (ts ++ .x (c! '(') :: (us ++ [.x (c! ')')])) (.inner .call (.name f :: es))
  | index (ts e us i) : GPrimary valid ts e → GExpr valid 0 us i →
      GPrimary valid (ts ++ .x (c! '[') :: (us ++ [.x (c! ']')])) (.inner .index [e, i])
  | dot (ts e s) : GPrimary valid ts e → GPrimary valid (ts ++ [.x (c! '.'), .expr (nameTok s)]) (.inner .dot [e, .name s])
/-- The smallest expressions. -/
inductive GAtom (valid : Bytes → Bool) : List Token → Expr → Prop
  | tru : GAtom valid [.expr (nameTok (b! "true"))] (.bool true)
  | fls : GAtom valid [.expr (nameTok (b! "false"))] (.bool false)
  | nul : GAtom valid [.expr (nameTok (b! "null"))] .null
  | name (s) : s ≠ b! "true" → s ≠ b! "false" → s ≠ b! "null" → GAtom valid [.expr (nameTok s)] (.name s)
  | int (n) : GAtom valid [.expr (intTok n)] (.int n)
  | real (f) : GAtom valid [.expr (realTok f)] (.float f)
  | str (s) : GAtom valid [.expr (strTok s)] (.str s)
  | re (s) : valid s = true → GAtom valid [.x (c! '/'), .regexp s] (.re s)
  | current : GAtom valid [.x (c! '@')] .current
  | root : GAtom valid [.x (c! '$')] .root
  | paren (ts e) : GExpr valid 0 ts e → GAtom valid (.x (c! '(') :: (ts ++ [.x (c! ')')])) e
  | array (ts es) : GList valid ts es → GAtom valid (.x (c! '[') :: (ts ++ [.x (c! ']')])) (.inner .array es)
/-- Expressions separated by commas; there may be none. -/
inductive GList (valid : Bytes → Bool) : List Token → List Expr → Prop
  | nil : GList valid [] []
  | some (ts es) : GList1 valid ts es → GList valid ts es
/-- One or more expressions separated by commas. -/
inductive GList1 (valid : Bytes → Bool) : List Token → List Expr → Prop
  | one (ts e) : GExpr valid 0 ts e → GList1 valid ts [e]
  | cons (ts e us es) : GExpr valid 0 ts e → GList1 valid us es → GList1 valid (ts ++ .x (c! ',') :: us) (e :: es)
end

/-- `expr ::= "(" script-expression ")"`, without the opening parenthesis. -/
def GParen (valid : Bytes → Bool) (ts : List Token) (e : Expr) : Prop :=
  ∃ us, GExpr valid 0 us e ∧ ts = us ++ [.x (c! ')')]

/-- `member ::= "*" | identifier | expr | signed-integer`; `none` is the wild card. -/
inductive GMember (valid : Bytes → Bool) : List Token → Option Val → Prop
  | wild : GMember valid [.p (c! '*')] none
  | name (s) : GMember valid [.path (nameTok s)] (some (.name s))
  | int (n) : GMember valid [.path (intTok n)] (some (.int n))
  | expr (ts e) : GParen valid ts e → GMember valid (.p (c! '(') :: ts) (some (.expr e))

/-- A bound of a slice: `signed-integer | expr`. -/
inductive GBound (valid : Bytes → Bool) : List Token → Bound → Prop
  | int (n) : GBound valid [.path (intTok n)] (.int n)
  | expr (ts e) : GParen valid ts e → GBound valid (.p (c! '(') :: ts) (.expr e)

/-- A bound that may be missing. -/
inductive GBound? (valid : Bytes → Bool) : List Token → Option Bound → Prop
  | none : GBound? valid [] none
  | some (ts b) : GBound valid ts b → GBound? valid ts (some b)

/-- `array-slice ::= start? ":" end? (":" stride?)?` -/
inductive GSlice (valid : Bytes → Bool) : List Token → Slice → Prop
  | two (ts a us b) : GBound? valid ts a → GBound? valid us b → GSlice valid (ts ++ .p (c! ':') :: us) ⟨a, b, none⟩
  | three (ts a us b vs c) : GBound? valid ts a → GBound? valid us b → GBound? valid vs c →
      GSlice valid (ts ++ .p (c! ':') :: (us ++ .p (c! ':') :: vs)) ⟨a, b, c⟩

/-- `union-element ::= array-index | string-literal | array-slice`, and also identifiers. -/
inductive GElem (valid : Bytes → Bool) : List Token → Val → Prop
  | int (n) : GElem valid [.path (intTok n)] (.int n)
  | str (s) : GElem valid [.path (strTok s)] (.str s)
  | name (s) : GElem valid [.path (nameTok s)] (.name s)
  | slice (ts s) : GSlice valid ts s → GElem valid ts (.slice s)

/-- One or more elements separated by commas. -/
inductive GElems (valid : Bytes → Bool) : List Token → List Val → Prop
  | one (ts v) : GElem valid ts v → GElems valid ts [v]
  | cons (ts v us vs) : GElem valid ts v → GElems valid us vs → GElems valid (ts ++ .p (c! ',') :: us) (v :: vs)

/-- The kinds of steps. -/
inductive StepKind where
  | wild
  | filter (e : Expr)
  | key (v : Val)
  | union (vs : List Val)

/-- `subscript ::= "*" | expr | filter | union-element ("," union-element)*` -/
inductive GSub (valid : Bytes → Bool) : List Token → StepKind → Prop
  | wild : GSub valid [.p (c! '*')] .wild
  | filter (ts e) : GParen valid ts e → GSub valid (.path (.plain .filter) :: ts) (.filter e)
  | expr (ts e) : GParen valid ts e → GSub valid (.p (c! '(') :: ts) (.key (.expr e))
  | one (ts v) : GElem valid ts v → GSub valid ts (.key v)
  | union (ts vs) : GElems valid ts vs → 2 ≤ vs.length → GSub valid ts (.union vs)

/-- The step for a subscript or the name after a dot, after one or two dots (`deep`). -/
def StepKind.step (brackets deep : Bool) : StepKind → Step
  | .wild => ⟨if deep then .nestWild else .wild, []⟩
  | .filter e => ⟨if deep then .nestFilter else .filter, [.expr e]⟩
  | .key v => ⟨match brackets, deep with
      | true, false => .select
      | true, true => .nestSelect
      | false, false => .member
      | false, true => .nestMember, [v]⟩
  | .union vs => ⟨if deep then .nestUnion else .union, vs⟩

/-- The step for what stands after a dot. -/
def memberKind : Option Val → StepKind
  | none => .wild
  | some v => .key v

/-- `step ::= "." member | ".." member | "[" subscript "]" | ".." "[" subscript "]"` -/
inductive GStep (valid : Bytes → Bool) : List Token → Step → Prop
  | member (ts m) : GMember valid ts m → GStep valid (.p (c! '.') :: ts) ((memberKind m).step false false)
  | nestMember (ts m) : GMember valid ts m → GStep valid (.path (.plain .nest) :: ts) ((memberKind m).step false true)
  | sub (ts k) : GSub valid ts k → GStep valid (.p (c! '[') :: (ts ++ [.p (c! ']')])) (k.step true false)
  | nestSub (ts k) : GSub valid ts k →
      GStep valid (.path (.plain .nest) :: .p (c! '[') :: (ts ++ [.p (c! ']')])) (k.step true true)

/-- Zero or more steps. -/
inductive GSteps (valid : Bytes → Bool) : List Token → Path → Prop
  | nil : GSteps valid [] []
  | cons (ts s us p) : GStep valid ts s → GSteps valid us p → GSteps valid (ts ++ us) (s :: p)

/-- `path ::= "$" step*` -/
def GPath (valid : Bytes → Bool) (ts : List Token) (p : Path) : Prop :=
  ∃ us, GSteps valid us p ∧ ts = .p (c! '$') :: us

end JP.Spec
