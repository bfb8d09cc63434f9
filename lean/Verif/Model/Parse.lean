import Verif.Model.Lex
/-!
paths/parser.go, paths/parsepath.go, paths/parseexpr.go: the parsers.
-/
namespace JP

/-- Parse errors, one constructor per `fmt.Errorf` (or returned lexical error). -/
inductive PErr where
  | lex (e : LexErr)
  | expectedErr (nt : Tok) (off : Nat) (e : LexErr)      -- parser.go:20
  | expected (nt : Tok) (off : Nat) (got : Tok)          -- parser.go:23
  | unexpectedLexeme (lx : Lexeme)                       -- parsepath.go:99
  | inUnion (op : Op)                                    -- parsepath.go:135
  | unexpectedAt (tok : Tok) (off : Nat)                 -- parsepath.go:240, 299, 327
  | unexpectedTokenAt (tok : Tok) (off : Nat)            -- parsepath.go:283
  | missingOperator (off : Nat) (tok : Tok)              -- parseexpr.go:22
  | notIdentifier (op : Op)                              -- parseexpr.go:115
  | notField                                             -- parseexpr.go:142
  | badRegexp (pattern : Bytes) (off : Nat)              -- parseexpr.go:225
  | unexpectedTerm (tok : Tok)                           -- parseexpr.go:246
  deriving DecidableEq, Repr, Inhabited

/-- paths/lex.go:67-71 `lexer`: the reader and one token of lookahead. -/
structure LState where
  rd : Rd
  peek : Option Lexeme
  deriving DecidableEq, Repr, Inhabited

/-- A parser action. -/
abbrev P (α : Type) := LState → Res PErr (α × LState)

namespace P
variable {α β : Type}
/-- Sequencing. -/
@[inline] def bind (x : P α) (f : α → P β) : P β := fun s =>
  match x s with
  | .ok (a, s) => f a s
  | .err e => .err e
  | .panic m => .panic m
  | .stuck => .stuck
instance : Monad P where
  pure a := fun s => .ok (a, s)
  bind := P.bind
/-- Return an error. -/
def fail (e : PErr) : P α := fun _ => .err e
/-- A Go panic. -/
def panic (m : String) : P α := fun _ => .panic m
/-- Out of fuel. -/
def stuck : P α := fun _ => .stuck
/-- paths/lex.go:96-98 `offset`. -/
def offset : P Nat := fun s => .ok (s.rd.offset, s)
end P

/-- paths/lex.go:78-84 `unget`. -/
def ungetP (lx : Lexeme) : P Unit := fun s =>
  match s.peek with
  | some _ => .panic "internal error: too much lookahead"
  | none => .ok ((), { s with peek := some lx })

/-- Take the saved token or scan a new one: the first lines of `lexExpr` and `lexPath`. -/
def lexWith (f : Rd → Option (Lexeme × Rd)) : P Lexeme := fun s =>
  match s.peek with
  | some lx => .ok (lx, { s with peek := none })
  | none => match f s.rd with
    | some (lx, r) => .ok (lx, { s with rd := r })
    | none => .stuck

/-- paths/lexexpr.go:14-59 `lexExpr`. -/
def lexExprP (env : Env) : P Lexeme := lexWith (lexExpr env)
/-- paths/lexpath.go:7-54 `lexPath`. -/
def lexPathP (env : Env) : P Lexeme := lexWith (lexPath env)

/-- paths/lex.go:87-93 `look`. -/
def lookWith (lex : P Lexeme) : P Tok := do
  let lx ← lex
  ungetP lx
  pure (if lx.err.isSome then .error else lx.tok)

/-- paths/parsepath.go:28-30 `lookPath`. -/
def lookPath (env : Env) : P Tok := lookWith (lexPathP env)
/-- paths/parseexpr.go:28-30 `lookExpr`. -/
def lookExpr (env : Env) : P Tok := lookWith (lexExprP env)

/-- paths/parseexpr.go:33-47 `lexOp`. -/
def lexOp (env : Env) : P Lexeme := do
  let lx ← lexExprP env
  let lx := if lx.err.isSome then { lx with tok := .error } else lx
  pure (if lx.tok = .id then
      if lx.val = .str (b! "in") then { lx with tok := .in_ }
      else if lx.val = .str (b! "nin") then { lx with tok := .nin }
      else lx
    else lx)

/-- paths/parseexpr.go:50-54 `lookOp`. -/
def lookOp (env : Env) : P Tok := do
  let lx ← lexOp env
  ungetP lx
  pure lx.tok

/-- paths/lex.go:52-54 `s`. -/
def Lexeme.s (lx : Lexeme) : P Bytes := match lx.val with
  | .str s => pure s
  | _ => P.panic "interface conversion"
/-- paths/lex.go:57-59 `i`. -/
def Lexeme.i (lx : Lexeme) : P Int64 := match lx.val with
  | .int n => pure n
  | _ => P.panic "interface conversion"
/-- paths/lex.go:62-64 `f`. -/
def Lexeme.f (lx : Lexeme) : P F64 := match lx.val with
  | .float f => pure f
  | _ => P.panic "interface conversion"

/-- paths/parser.go:17-26 `expect`. -/
def expect (lex : P Lexeme) (nt : Tok) : P Unit := do
  let lx ← lex
  let off ← P.offset
  match lx.err with
  | some e => P.fail (.expectedErr nt off e)
  | none => if lx.tok ≠ nt then P.fail (.expected nt off lx.tok) else pure ()

/-- paths/parseexpr.go:251-288 `tok2op`. -/
def tok2op : Tok → Op
  | .eq => .eq
  | .ne => .ne
  | .le => .le
  | .ge => .ge
  | .and => .and
  | .or => .or
  | .match_ => .match_
  | .in_ => .in_
  | .nin => .nin
  | .ch c =>
    if c == c! '*' then .mul
    else if c == c! '+' then .add
    else if c == c! '-' then .sub
    else if c == c! '/' then .div
    else if c == c! '%' then .mod
    else if c == c! '<' then .lt
    else if c == c! '>' then .gt
    else if c == c! '~' then .match_
    else .error
  | _ => .error

/-! The expression parser. Every function takes fuel that bounds the depth of its recursion;
`parse_fuel` (Proof/ParseTotal) shows that the fuel given at the entry points always suffices. -/
mutual
/-- paths/parseexpr.go:72-76 `expr`: the first primary. -/
def pExpr (env : Env) : (fuel : Nat) → (pri : Int) → P Expr
  | 0, _ => P.stuck
  | f + 1, pri => do
    let e ← pPrimary env f
    pExprLoop env f pri e
/-- paths/parseexpr.go:78-91: the loop of `expr`. -/
def pExprLoop (env : Env) : (fuel : Nat) → (pri : Int) → Expr → P Expr
  | 0, _, _ => P.stuck
  | f + 1, pri, e => do
    let t ← lookOp env
    if (tok2op t).precedence ≥ pri then do
      let lx ← lexOp env
      match lx.err with
      | some er => P.fail (.lex er)
      | none => do
        let op := tok2op lx.tok
        let right ← pExpr env f (op.precedence + op.associativity)
        pExprLoop env f pri (.inner op [e, right])
    else pure e
/-- paths/parseexpr.go:105-109 `primary`. -/
def pPrimary (env : Env) : (fuel : Nat) → P Expr
  | 0 => P.stuck
  | f + 1 => do
    let e ← pPrimary1 env f
    pPrimaryLoop env f e
/-- paths/parseexpr.go:110-148: the loop of `primary`. -/
def pPrimaryLoop (env : Env) : (fuel : Nat) → Expr → P Expr
  | 0, _ => P.stuck
  | f + 1, e => do
    let t ← lookExpr env
    if t = .ch (c! '(') then
      if e.opcode ≠ .id then P.fail (.notIdentifier e.opcode)
      else do
        let _ ← lexExprP env
        let e ← pApplication env f .call (.ch (c! ')')) [e]
        pPrimaryLoop env f e
    else if t = .ch (c! '[') then do
      let _ ← lexExprP env
      let index ← pExpr env f 0
      expect (lexExprP env) (.ch (c! ']'))
      pPrimaryLoop env f (.inner .index [e, index])
    else if t = .ch (c! '.') then do
      let _ ← lexExprP env
      let lx ← lexExprP env
      match lx.err with
      | some er => P.fail (.lex er)
      | none =>
        if lx.tok ≠ .id then P.fail .notField
        else do
          let name ← lx.s
          pPrimaryLoop env f (.inner .dot [e, .name name])
    else pure e
/-- paths/parseexpr.go:152-169 `application`; `args` holds the optional first operand. -/
def pApplication (env : Env) : (fuel : Nat) → (op : Op) → (stop : Tok) → (args : List Expr) → P Expr
  | 0, _, _, _ => P.stuck
  | f + 1, op, stop, args => do
    let t ← lookExpr env
    let args ← if t ≠ stop then pExprList env f args else pure args
    expect (lexExprP env) stop
    pure (.inner op args)
/-- paths/parseexpr.go:173-185 `parseExprList`. -/
def pExprList (env : Env) : (fuel : Nat) → List Expr → P (List Expr)
  | 0, _ => P.stuck
  | f + 1, list => do
    let e ← pExpr env f 0
    let list := list ++ [e]
    let t ← lookExpr env
    if t ≠ .ch (c! ',') then pure list
    else do
      let _ ← lexExprP env
      pExprList env f list
/-- paths/parseexpr.go:188-248 `primary1`, and 96-102 `unary`. -/
def pPrimary1 (env : Env) : (fuel : Nat) → P Expr
  | 0 => P.stuck
  | f + 1 => do
    let lx ← lexExprP env
    match lx.err with
    | some er => P.fail (.lex er)
    | none =>
      match lx.tok with
      | .id => do
        let id ← lx.s
        if id = b! "true" then pure (.bool true)
        else if id = b! "false" then pure (.bool false)
        else if id = b! "null" then pure .null
        else pure (.name id)
      | .int => do
        let n ← lx.i
        pure (.int n)
      | .real => do
        let x ← lx.f
        pure (.float x)
      | .string => do
        let s ← lx.s
        pure (.str s)
      | .ch c =>
        if c == c! '-' then do
          let arg ← pPrimary env f
          pure (.inner .neg [arg])
        else if c == c! '!' then do
          let arg ← pPrimary env f
          pure (.inner .not [arg])
        else if c == c! '/' then do
          let off ← P.offset
          let lx ← (fun s => let (lx, r) := lexRegexp (c! '/') s.rd; .ok (lx, { s with rd := r }) : P Lexeme)
          match lx.err with
          | some er => P.fail (.lex er)
          | none => do
            let s ← lx.s
            if env.reValid s then pure (.re s) else P.fail (.badRegexp s off)
        else if c == c! '@' then pure .current
        else if c == c! '$' then pure .root
        else if c == c! '(' then do
          let e ← pExpr env f 0
          expect (lexExprP env) (.ch (c! ')'))
          pure e
        else if c == c! '[' then pApplication env f .array (.ch (c! ']')) []
        else P.fail (.unexpectedTerm (.ch c))
      | t => P.fail (.unexpectedTerm t)
end

/-- Fuel for the expression parser in a given state. -/
def exprFuel (s : LState) : Nat := 16 * s.rd.rest.length + 16

/-- paths/parseexpr.go:62-64 `parseScriptExpr`. -/
def parseScriptExpr (env : Env) : P Expr := fun s => pExpr env (exprFuel s) 0 s

/-- paths/parseexpr.go:14-25 `ParseScriptExpression`. -/
def parseScriptExpression (env : Env) (text : Bytes) : Res PErr Expr :=
  let p : P Expr := do
    let e ← parseScriptExpr env
    let lx ← lexExprP env
    let off ← P.offset
    if lx.tok ≠ .eof then P.fail (.missingOperator off lx.tok) else pure e
  match p ⟨⟨[], text⟩, none⟩ with
  | .ok (e, _) => .ok e
  | .err e => .err e
  | .panic m => .panic m
  | .stuck => .stuck

/-- paths/parsepath.go:332-342 `parseExpr`. -/
def pParenExpr (env : Env) : P Expr := do
  let e ← parseScriptExpr env
  expect (lexPathP env) (.ch (c! ')'))
  pure e

/-- paths/parsepath.go:304-329 `parseMember`: `none` is the wild card. -/
def pMember (env : Env) : P (Option Val) := do
  let lx ← lexPathP env
  match lx.err with
  | some er => P.fail (.lex er)
  | none =>
    if lx.tok = .ch (c! '*') then pure none
    else if lx.tok = .id then do
      let s ← lx.s
      pure (some (.name s))
    else if lx.tok = .int then do
      let n ← lx.i
      pure (some (.int n))
    else if lx.tok = .ch (c! '(') then do
      let e ← pParenExpr env
      pure (some (.expr e))
    else do
      let off ← P.offset
      P.fail (.unexpectedAt lx.tok off)

/-- paths/parsepath.go:288-301 `parseSliceVal`. The token's error, if any, is not looked at: the token
is then `tokError`. -/
def pSliceVal (env : Env) : P Bound := do
  let lx ← lexPathP env
  if lx.tok = .ch (c! '(') then do
    let e ← pParenExpr env
    pure (.expr e)
  else if lx.tok = .int then do
    let n ← lx.i
    pure (.int n)
  else do
    let off ← P.offset
    P.fail (.unexpectedAt lx.tok off)

/-- paths/parsepath.go:248-285 `parseSlice`. -/
def pSlice (env : Env) (start : Option Bound) : P Step := do
  let mk (stop stride : Option Bound) : Step := ⟨.select, [.slice ⟨start, stop, stride⟩]⟩
  let tok ← lookPath env
  if tok = .ch (c! ',') ∨ tok = .ch (c! ']') then pure (mk none none)
  else do
    let stop ← if tok ≠ .ch (c! ':') then do
        let e ← pSliceVal env
        pure (some e)
      else pure none
    let t ← lookPath env
    if t = .ch (c! ']') ∨ t = .ch (c! ',') then pure (mk stop none)
    else if t = .ch (c! ':') then do
      let _ ← lexPathP env
      let tok ← lookPath env
      if tok = .ch (c! ',') ∨ tok = .ch (c! ']') then pure (mk stop none)
      else do
        let e ← pSliceVal env
        pure (mk stop (some e))
    else do
      let t ← lookPath env
      let off ← P.offset
      P.fail (.unexpectedTokenAt t off)

/-- paths/parsepath.go:188-242 `parseVal`. -/
def pVal (env : Env) : P Step := do
  let lx ← lexPathP env
  match lx.err with
  | some er => P.fail (.lex er)
  | none =>
    if lx.tok = .ch (c! '*') then pure ⟨.wild, []⟩
    else if lx.tok = .ch (c! '(') then do
      let e ← pParenExpr env
      let t ← lookPath env
      if t = .ch (c! ':') then do
        let _ ← lexPathP env
        pSlice env (some (.expr e))
      else pure ⟨.exp, [.expr e]⟩
    else if lx.tok = .ch (c! ':') then pSlice env none
    else if lx.tok = .filter then do
      let e ← pParenExpr env
      pure ⟨.filter, [.expr e]⟩
    else if lx.tok = .int then do
      let n ← lx.i
      let t ← lookPath env
      if t = .ch (c! ':') then do
        let _ ← lexPathP env
        pSlice env (some (.int n))
      else pure ⟨.int, [.int n]⟩
    else if lx.tok = .string then do
      let s ← lx.s
      pure ⟨.string, [.str s]⟩
    else if lx.tok = .id then do
      let s ← lx.s
      pure ⟨.id, [.name s]⟩
    else do
      let off ← P.offset
      P.fail (.unexpectedAt lx.tok off)

/-- paths/parsepath.go:169-183 `parseValList`. -/
def pValList (env : Env) : (fuel : Nat) → P (List Step)
  | 0 => P.stuck
  | f + 1 => do
    let v ← pVal env
    let t ← lookPath env
    if t ≠ .ch (c! ',') then pure [v]
    else do
      let _ ← lexPathP env
      let vs ← pValList env f
      pure (v :: vs)

/-- paths/parsepath.go:131-140: the first element that may not be in a union. -/
def notInUnion : List Step → Option Op
  | [] => none
  | s :: r => if s.op = .wild ∨ s.op = .exp ∨ s.op = .filter then some s.op else notInUnion r

/-- paths/parsepath.go:151-157. -/
def unionArgs : List Step → Option (List Val)
  | [] => some []
  | s :: r => match s.args with
    | [v] => (unionArgs r).map (v :: ·)
    | _ => none

/-- paths/parsepath.go:126-163 `parseSubscript`, after `parseValList`. -/
def subscript (steps : List Step) : P Step :=
  match (if steps.length > 1 then notInUnion steps else none) with
  | some op => P.fail (.inUnion op)
  | none =>
    match steps with
    | [] => P.panic "index out of range"
    | s :: _ =>
      if s.op = .wild ∨ s.op = .filter then pure s
      else if s.op = .exp then pure { s with op := .select }
      else match unionArgs steps with
        | none => P.panic "incorrect structure for subscript list"
        | some [a] => pure ⟨.select, [a]⟩
        | some args => pure ⟨.union, args⟩

/-- Fuel for the loops of the path parser. -/
def pathFuel (s : LState) : Nat := 2 * s.rd.rest.length + 4

/-- paths/parsepath.go:106-116 `parseBrackets`. -/
def pBrackets (env : Env) : P Step := do
  let steps ← (fun s => pValList env (pathFuel s) s : P (List Step))
  let step ← subscript steps
  expect (lexPathP env) (.ch (c! ']'))
  pure step

/-- paths/parsepath.go:65-78: the nested form of a subscript. -/
def nestOp : Op → Option Op
  | .select | .exp => some .nestSelect
  | .union => some .nestUnion
  | .wild => some .nestWild
  | .filter => some .nestFilter
  | _ => none

/-- paths/parsepath.go:40-101: the loop of `parsePath`. -/
def pSteps (env : Env) : (fuel : Nat) → (acc : Path) → P Path
  | 0, _ => P.stuck
  | f + 1, acc => do
    let lx ← lexPathP env
    match lx.tok with
    | .eof => pure acc
    | .error => match lx.err with
      | some er => P.fail (.lex er)
      | none => P.panic "nil error"   -- unreachable: a tokError always carries an error
    | .nest => do
      let t ← lookPath env
      if t = .ch (c! '[') then do
        let _ ← lexPathP env
        let sub ← pBrackets env
        match nestOp sub.op with
        | none => P.panic "unexpected Nest Op"
        | some op => pSteps env f (acc ++ [{ sub with op := op }])
      else do
        let m ← pMember env
        match m with
        | none => pSteps env f (acc ++ [⟨.nestWild, []⟩])
        | some v => pSteps env f (acc ++ [⟨.nestMember, [v]⟩])
    | .ch c =>
      if c == c! '.' then do
        let m ← pMember env
        match m with
        | none => pSteps env f (acc ++ [⟨.wild, []⟩])
        | some v => pSteps env f (acc ++ [⟨.member, [v]⟩])
      else if c == c! '[' then do
        let sub ← pBrackets env
        pSteps env f (acc ++ [sub])
      else P.fail (.unexpectedLexeme lx)
    | _ => P.fail (.unexpectedLexeme lx)

/-- paths/parsepath.go:34-102 `parsePath`. -/
def pPath (env : Env) : P Path := do
  expect (lexPathP env) (.ch (c! '$'))
  (fun s => pSteps env (pathFuel s) [] s : P Path)

/-- paths/parsepath.go:24-26 `ParsePath`, paths/parser.go:13-15. -/
def parsePath (env : Env) (text : Bytes) : Res PErr Path :=
  match pPath env ⟨⟨[], text⟩, none⟩ with
  | .ok (p, _) => .ok p
  | .err e => .err e
  | .panic m => .panic m
  | .stuck => .stuck

end JP
