import Verif.Model.Parse
/-!
The expression parser of paths/parseexpr.go with a limited stack: as in `Model/Parse`, but every call of a Go function takes one frame of
those that are left, and returning gives it back.  Calls that return before the next one (of the scanner, `expect`, `look` and so on) are not
counted; they do not call themselves.
-/
namespace JP

/-- The end of the stack, which a Go program does not survive. -/
def overflow {α : Type} : P α := P.panic "stack overflow"

/-- A call when `d` frames are left. -/
def frame {α : Type} (d : Nat) (k : Nat → P α) : P α :=
  match d with
  | 0 => overflow
  | d + 1 => k d

mutual
/-- paths/parseexpr.go:72-76 `expr`. -/
def dExpr (env : Env) : (fuel : Nat) → (d : Nat) → (pri : Int) → P Expr
  | 0, _, _ => P.stuck
  | f + 1, d, pri => frame d fun d => do
    let e ← dPrimary env f d
    dExprLoop env f d pri e
/-- paths/parseexpr.go:78-91: the loop of `expr`. -/
def dExprLoop (env : Env) : (fuel : Nat) → (d : Nat) → (pri : Int) → Expr → P Expr
  | 0, _, _, _ => P.stuck
  | f + 1, d, pri, e => do
    let t ← lookOp env
    if (tok2op t).precedence ≥ pri then do
      let lx ← lexOp env
      match lx.err with
      | some er => P.fail (.lex er)
      | none => do
        let op := tok2op lx.tok
        let right ← dExpr env f d (op.precedence + op.associativity)
        dExprLoop env f d pri (.inner op [e, right])
    else pure e
/-- paths/parseexpr.go:105-109 `primary`. -/
def dPrimary (env : Env) : (fuel : Nat) → (d : Nat) → P Expr
  | 0, _ => P.stuck
  | f + 1, d => frame d fun d => do
    let e ← dPrimary1 env f d
    dPrimaryLoop env f d e
/-- paths/parseexpr.go:110-148: the loop of `primary`. -/
def dPrimaryLoop (env : Env) : (fuel : Nat) → (d : Nat) → Expr → P Expr
  | 0, _, _ => P.stuck
  | f + 1, d, e => do
    let t ← lookExpr env
    if t = .ch (c! '(') then
      if e.opcode ≠ .id then P.fail (.notIdentifier e.opcode)
      else do
        let _ ← lexExprP env
        let e ← dApplication env f d .call (.ch (c! ')')) [e]
        dPrimaryLoop env f d e
    else if t = .ch (c! '[') then do
      let _ ← lexExprP env
      let index ← dExpr env f d 0
      expect (lexExprP env) (.ch (c! ']'))
      dPrimaryLoop env f d (.inner .index [e, index])
    else if t = .ch (c! '.') then do
      let _ ← lexExprP env
      let lx ← lexExprP env
      match lx.err with
      | some er => P.fail (.lex er)
      | none =>
        if lx.tok ≠ .id then P.fail .notField
        else do
          let name ← lx.s
          dPrimaryLoop env f d (.inner .dot [e, .name name])
    else pure e
/-- paths/parseexpr.go:152-169 `application`. -/
def dApplication (env : Env) : (fuel : Nat) → (d : Nat) → (op : Op) → (stop : Tok) → (args : List Expr) → P Expr
  | 0, _, _, _, _ => P.stuck
  | f + 1, d, op, stop, args => frame d fun d => do
    let t ← lookExpr env
    let args ← if t ≠ stop then frame d fun d => dExprList env f d args else pure args
    expect (lexExprP env) stop
    pure (.inner op args)
/-- paths/parseexpr.go:173-185: the loop of `parseExprList`. -/
def dExprList (env : Env) : (fuel : Nat) → (d : Nat) → List Expr → P (List Expr)
  | 0, _, _ => P.stuck
  | f + 1, d, list => do
    let e ← dExpr env f d 0
    let list := list ++ [e]
    let t ← lookExpr env
    if t ≠ .ch (c! ',') then pure list
    else do
      let _ ← lexExprP env
      dExprList env f d list
/-- paths/parseexpr.go:188-248 `primary1`, and 96-102 `unary`. -/
def dPrimary1 (env : Env) : (fuel : Nat) → (d : Nat) → P Expr
  | 0, _ => P.stuck
  | f + 1, d => frame d fun d => do
    let lx ← lexExprP env
    match lx.err with
    | some er => P.fail (.lex er)
    | none =>
      match lx.tok with
      | .id => do
        let id ← lx.s
        if id = b! "true" then pure (.bool true)
        else if id = b! "false" then pure (.bool false)
        else if id = b! "null" then pure .null
        else pure (.name id)
      | .int => do
        let n ← lx.i
        pure (.int n)
      | .real => do
        let x ← lx.f
        pure (.float x)
      | .string => do
        let s ← lx.s
        pure (.str s)
      | .ch c =>
        if c == c! '-' then do
          let arg ← frame d fun d => dPrimary env f d
          pure (.inner .neg [arg])
        else if c == c! '!' then do
          let arg ← frame d fun d => dPrimary env f d
          pure (.inner .not [arg])
        else if c == c! '/' then do
          let off ← P.offset
          let lx ← (fun s => let (lx, r) := lexRegexp (c! '/') s.rd; .ok (lx, { s with rd := r }) : P Lexeme)
          match lx.err with
          | some er => P.fail (.lex er)
          | none => do
            let s ← lx.s
            if env.reValid s then pure (.re s) else P.fail (.badRegexp s off)
        else if c == c! '@' then pure .current
        else if c == c! '$' then pure .root
        else if c == c! '(' then do
          let e ← frame d fun d => dExpr env f d 0
          expect (lexExprP env) (.ch (c! ')'))
          pure e
        else if c == c! '[' then dApplication env f d .array (.ch (c! ']')) []
        else P.fail (.unexpectedTerm (.ch c))
      | t => P.fail (.unexpectedTerm t)
end

/-- paths/parseexpr.go:62-64 `parseScriptExpr`, which the parser of paths calls for every expression. -/
def dScriptExpr (env : Env) (d : Nat) : P Expr := fun s => frame d (fun d => dExpr env (exprFuel s) d 0) s

/-- paths/parseexpr.go:14-25 `ParseScriptExpression` with `d` frames. -/
def dScriptExpression (env : Env) (d : Nat) (text : Bytes) : Res PErr Expr :=
  let p : P Expr := frame d fun d => do
    let e ← dScriptExpr env d
    let lx ← lexExprP env
    let off ← P.offset
    if lx.tok ≠ .eof then P.fail (.missingOperator off lx.tok) else pure e
  match p ⟨⟨[], text⟩, none⟩ with
  | .ok (e, _) => .ok e
  | .err e => .err e
  | .panic m => .panic m
  | .stuck => .stuck

end JP
