import Verif.Model.Parse
/-!
The parsers of paths/parser.go, paths/parsepath.go and paths/parseexpr.go with a clock: as in `Model/Parse`, but they count.  Every call of a
function and every turn of a loop is a step, and so is every byte that the scanner moves past.  What is done between them takes a time that
does not depend on the text; the scanner's own functions read each byte once or, the last byte of a token, twice; the `append` of Go is taken
to be one step, and compiling a regular expression (`regexp.Compile`) is not counted.
-/
namespace JP

/-- A parser action that counts its steps. -/
abbrev T (α : Type) := LState → Res PErr (α × LState) × Nat

namespace T
variable {α β : Type}
/-- Sequencing: the steps add up. -/
def bind (x : T α) (f : α → T β) : T β := fun s =>
  match x s with
  | (.ok (a, s), n) => ((f a s).1, n + (f a s).2)
  | (.err e, n) => (.err e, n)
  | (.panic m, n) => (.panic m, n)
  | (.stuck, n) => (.stuck, n)
/-- An action that takes no steps of its own. -/
def of (x : P α) : T α := fun s => (x s, 0)
instance : Monad T where
  pure a := fun s => (.ok (a, s), 0)
  bind := T.bind
/-- Return an error. -/
def fail (e : PErr) : T α := of (P.fail e)
/-- A Go panic. -/
def panic (m : String) : T α := of (P.panic m)
/-- Out of fuel. -/
def stuck : T α := of P.stuck
/-- Steps. -/
def tick (n : Nat) : T Unit := fun s => (.ok ((), s), n)
/-- A call of the scanner: a step, and one for each byte it moves past. -/
def scan (x : P α) : T α := fun s =>
  (x s, 1 + match x s with
    | .ok (_, s') => s.rd.rest.length - s'.rd.rest.length
    | _ => 0)
/-- Parse a text. -/
def run (x : T α) (text : Bytes) : Res PErr α × Nat :=
  (match (x ⟨⟨[], text⟩, none⟩).1 with
  | .ok (a, _) => .ok a
  | .err e => .err e
  | .panic m => .panic m
  | .stuck => .stuck, (x ⟨⟨[], text⟩, none⟩).2)
end T

/-- paths/lexexpr.go:14-59 `lexExpr`. -/
def tLexExpr (env : Env) : T Lexeme := T.scan (lexExprP env)
/-- paths/lexpath.go:7-54 `lexPath`. -/
def tLexPath (env : Env) : T Lexeme := T.scan (lexPathP env)

/-- paths/lex.go:87-93 `look`. -/
def tLookWith (lex : T Lexeme) : T Tok := do
  T.tick 1
  let lx ← lex
  T.of (ungetP lx)
  pure (if lx.err.isSome then .error else lx.tok)

/-- paths/parsepath.go:28-30 `lookPath`. -/
def tLookPath (env : Env) : T Tok := tLookWith (tLexPath env)
/-- paths/parseexpr.go:28-30 `lookExpr`. -/
def tLookExpr (env : Env) : T Tok := tLookWith (tLexExpr env)

/-- paths/parseexpr.go:33-47 `lexOp`. -/
def tLexOp (env : Env) : T Lexeme := do
  T.tick 1
  let lx ← tLexExpr env
  let lx := if lx.err.isSome then { lx with tok := .error } else lx
  pure (if lx.tok = .id then
      if lx.val = .str (b! "in") then { lx with tok := .in_ }
      else if lx.val = .str (b! "nin") then { lx with tok := .nin }
      else lx
    else lx)

/-- paths/parseexpr.go:50-54 `lookOp`. -/
def tLookOp (env : Env) : T Tok := do
  T.tick 1
  let lx ← tLexOp env
  T.of (ungetP lx)
  pure lx.tok

/-- paths/parser.go:17-26 `expect`. -/
def tExpect (lex : T Lexeme) (nt : Tok) : T Unit := do
  T.tick 1
  let lx ← lex
  let off ← T.of P.offset
  match lx.err with
  | some e => T.fail (.expectedErr nt off e)
  | none => if lx.tok ≠ nt then T.fail (.expected nt off lx.tok) else pure ()

mutual
/-- paths/parseexpr.go:72-76 `expr`: the first primary. -/
def tExpr (env : Env) : (fuel : Nat) → (pri : Int) → T Expr
  | 0, _ => T.stuck
  | f + 1, pri => do
    T.tick 1
    let e ← tPrimary env f
    tExprLoop env f pri e
/-- paths/parseexpr.go:78-91: the loop of `expr`. -/
def tExprLoop (env : Env) : (fuel : Nat) → (pri : Int) → Expr → T Expr
  | 0, _, _ => T.stuck
  | f + 1, pri, e => do
    T.tick 1
    let t ← tLookOp env
    if (tok2op t).precedence ≥ pri then do
      let lx ← tLexOp env
      match lx.err with
      | some er => T.fail (.lex er)
      | none => do
        let op := tok2op lx.tok
        let right ← tExpr env f (op.precedence + op.associativity)
        tExprLoop env f pri (.inner op [e, right])
    else pure e
/-- paths/parseexpr.go:105-109 `primary`. -/
def tPrimary (env : Env) : (fuel : Nat) → T Expr
  | 0 => T.stuck
  | f + 1 => do
    T.tick 1
    let e ← tPrimary1 env f
    tPrimaryLoop env f e
/-- paths/parseexpr.go:110-148: the loop of `primary`. -/
def tPrimaryLoop (env : Env) : (fuel : Nat) → Expr → T Expr
  | 0, _ => T.stuck
  | f + 1, e => do
    T.tick 1
    let t ← tLookExpr env
    if t = .ch (c! '(') then
      if e.opcode ≠ .id then T.fail (.notIdentifier e.opcode)
      else do
        let _ ← tLexExpr env
        let e ← tApplication env f .call (.ch (c! ')')) [e]
        tPrimaryLoop env f e
    else if t = .ch (c! '[') then do
      let _ ← tLexExpr env
      let index ← tExpr env f 0
      tExpect (tLexExpr env) (.ch (c! ']'))
      tPrimaryLoop env f (.inner .index [e, index])
    else if t = .ch (c! '.') then do
      let _ ← tLexExpr env
      let lx ← tLexExpr env
      match lx.err with
      | some er => T.fail (.lex er)
      | none =>
        if lx.tok ≠ .id then T.fail .notField
        else do
          let name ← T.of lx.s
          tPrimaryLoop env f (.inner .dot [e, .name name])
    else pure e
/-- paths/parseexpr.go:152-169 `application`; `args` holds the optional first operand. -/
def tApplication (env : Env) : (fuel : Nat) → (op : Op) → (stop : Tok) → (args : List Expr) → T Expr
  | 0, _, _, _ => T.stuck
  | f + 1, op, stop, args => do
    T.tick 1
    let t ← tLookExpr env
    let args ← if t ≠ stop then tExprList env f args else pure args
    tExpect (tLexExpr env) stop
    pure (.inner op args)
/-- paths/parseexpr.go:173-185 `parseExprList`. -/
def tExprList (env : Env) : (fuel : Nat) → List Expr → T (List Expr)
  | 0, _ => T.stuck
  | f + 1, list => do
    T.tick 1
    let e ← tExpr env f 0
    let list := list ++ [e]
    let t ← tLookExpr env
    if t ≠ .ch (c! ',') then pure list
    else do
      let _ ← tLexExpr env
      tExprList env f list
/-- paths/parseexpr.go:188-248 `primary1`, and 96-102 `unary`. -/
def tPrimary1 (env : Env) : (fuel : Nat) → T Expr
  | 0 => T.stuck
  | f + 1 => do
    T.tick 1
    let lx ← tLexExpr env
    match lx.err with
    | some er => T.fail (.lex er)
    | none =>
      match lx.tok with
      | .id => do
        let id ← T.of lx.s
        if id = b! "true" then pure (.bool true)
        else if id = b! "false" then pure (.bool false)
        else if id = b! "null" then pure .null
        else pure (.name id)
      | .int => do
        let n ← T.of lx.i
        pure (.int n)
      | .real => do
        let x ← T.of lx.f
        pure (.float x)
      | .string => do
        let s ← T.of lx.s
        pure (.str s)
      | .ch c =>
        if c == c! '-' then do
          let arg ← tPrimary env f
          pure (.inner .neg [arg])
        else if c == c! '!' then do
          let arg ← tPrimary env f
          pure (.inner .not [arg])
        else if c == c! '/' then do
          let off ← T.of P.offset
          let lx ← T.scan (fun s => let (lx, r) := lexRegexp (c! '/') s.rd; .ok (lx, { s with rd := r }))
          match lx.err with
          | some er => T.fail (.lex er)
          | none => do
            let s ← T.of lx.s
            if env.reValid s then pure (.re s) else T.fail (.badRegexp s off)
        else if c == c! '@' then pure .current
        else if c == c! '$' then pure .root
        else if c == c! '(' then do
          let e ← tExpr env f 0
          tExpect (tLexExpr env) (.ch (c! ')'))
          pure e
        else if c == c! '[' then tApplication env f .array (.ch (c! ']')) []
        else T.fail (.unexpectedTerm (.ch c))
      | t => T.fail (.unexpectedTerm t)
end

/-- paths/parseexpr.go:62-64 `parseScriptExpr`. -/
def tScriptExpr (env : Env) : T Expr := fun s => tExpr env (exprFuel s) 0 s

/-- paths/parseexpr.go:14-25 `ParseScriptExpression`. -/
def tScriptExpression (env : Env) (text : Bytes) : Res PErr Expr × Nat :=
  T.run (do
    let e ← tScriptExpr env
    let lx ← tLexExpr env
    let off ← T.of P.offset
    if lx.tok ≠ .eof then T.fail (.missingOperator off lx.tok) else pure e) text

/-- paths/parsepath.go:332-342 `parseExpr`. -/
def tParenExpr (env : Env) : T Expr := do
  T.tick 1
  let e ← tScriptExpr env
  tExpect (tLexPath env) (.ch (c! ')'))
  pure e

/-- paths/parsepath.go:304-329 `parseMember`: `none` is the wild card. -/
def tMember (env : Env) : T (Option Val) := do
  T.tick 1
  let lx ← tLexPath env
  match lx.err with
  | some er => T.fail (.lex er)
  | none =>
    if lx.tok = .ch (c! '*') then pure none
    else if lx.tok = .id then do
      let s ← T.of lx.s
      pure (some (.name s))
    else if lx.tok = .int then do
      let n ← T.of lx.i
      pure (some (.int n))
    else if lx.tok = .ch (c! '(') then do
      let e ← tParenExpr env
      pure (some (.expr e))
    else do
      let off ← T.of P.offset
      T.fail (.unexpectedAt lx.tok off)

/-- paths/parsepath.go:288-301 `parseSliceVal`. The token's error, if any, is not looked at: the token
is then `tokError`. -/
def tSliceVal (env : Env) : T Bound := do
  T.tick 1
  let lx ← tLexPath env
  if lx.tok = .ch (c! '(') then do
    let e ← tParenExpr env
    pure (.expr e)
  else if lx.tok = .int then do
    let n ← T.of lx.i
    pure (.int n)
  else do
    let off ← T.of P.offset
    T.fail (.unexpectedAt lx.tok off)

/-- paths/parsepath.go:248-285 `parseSlice`. -/
def tSlice (env : Env) (start : Option Bound) : T Step := do
  T.tick 1
  let mk (stop stride : Option Bound) : Step := ⟨.select, [.slice ⟨start, stop, stride⟩]⟩
  let tok ← tLookPath env
  if tok = .ch (c! ',') ∨ tok = .ch (c! ']') then pure (mk none none)
  else do
    let stop ← if tok ≠ .ch (c! ':') then do
        let e ← tSliceVal env
        pure (some e)
      else pure none
    let t ← tLookPath env
    if t = .ch (c! ']') ∨ t = .ch (c! ',') then pure (mk stop none)
    else if t = .ch (c! ':') then do
      let _ ← tLexPath env
      let tok ← tLookPath env
      if tok = .ch (c! ',') ∨ tok = .ch (c! ']') then pure (mk stop none)
      else do
        let e ← tSliceVal env
        pure (mk stop (some e))
    else do
      let t ← tLookPath env
      let off ← T.of P.offset
      T.fail (.unexpectedTokenAt t off)

/-- paths/parsepath.go:188-242 `parseVal`. -/
def tVal (env : Env) : T Step := do
  T.tick 1
  let lx ← tLexPath env
  match lx.err with
  | some er => T.fail (.lex er)
  | none =>
    if lx.tok = .ch (c! '*') then pure ⟨.wild, []⟩
    else if lx.tok = .ch (c! '(') then do
      let e ← tParenExpr env
      let t ← tLookPath env
      if t = .ch (c! ':') then do
        let _ ← tLexPath env
        tSlice env (some (.expr e))
      else pure ⟨.exp, [.expr e]⟩
    else if lx.tok = .ch (c! ':') then tSlice env none
    else if lx.tok = .filter then do
      let e ← tParenExpr env
      pure ⟨.filter, [.expr e]⟩
    else if lx.tok = .int then do
      let n ← T.of lx.i
      let t ← tLookPath env
      if t = .ch (c! ':') then do
        let _ ← tLexPath env
        tSlice env (some (.int n))
      else pure ⟨.int, [.int n]⟩
    else if lx.tok = .string then do
      let s ← T.of lx.s
      pure ⟨.string, [.str s]⟩
    else if lx.tok = .id then do
      let s ← T.of lx.s
      pure ⟨.id, [.name s]⟩
    else do
      let off ← T.of P.offset
      T.fail (.unexpectedAt lx.tok off)

/-- paths/parsepath.go:169-183 `parseValList`. -/
def tValList (env : Env) : (fuel : Nat) → T (List Step)
  | 0 => T.stuck
  | f + 1 => do
    T.tick 1
    let v ← tVal env
    let t ← tLookPath env
    if t ≠ .ch (c! ',') then pure [v]
    else do
      let _ ← tLexPath env
      let vs ← tValList env f
      pure (v :: vs)

/-- paths/parsepath.go:126-163 `parseSubscript`, after `parseValList`: it goes over the list at most twice. -/
def tSubscript (steps : List Step) : T Step := do
  T.tick (2 * steps.length + 1)
  T.of (subscript steps)

/-- paths/parsepath.go:106-116 `parseBrackets`. -/
def tBrackets (env : Env) : T Step := do
  T.tick 1
  let steps ← (fun s => tValList env (pathFuel s) s : T (List Step))
  let step ← tSubscript steps
  tExpect (tLexPath env) (.ch (c! ']'))
  pure step

/-- paths/parsepath.go:40-101: the loop of `parsePath`. -/
def tSteps (env : Env) : (fuel : Nat) → (acc : Path) → T Path
  | 0, _ => T.stuck
  | f + 1, acc => do
    T.tick 1
    let lx ← tLexPath env
    match lx.tok with
    | .eof => pure acc
    | .error => match lx.err with
      | some er => T.fail (.lex er)
      | none => T.panic "nil error"   -- unreachable: a tokError always carries an error
    | .nest => do
      let t ← tLookPath env
      if t = .ch (c! '[') then do
        let _ ← tLexPath env
        let sub ← tBrackets env
        match nestOp sub.op with
        | none => T.panic "unexpected Nest Op"
        | some op => tSteps env f (acc ++ [{ sub with op := op }])
      else do
        let m ← tMember env
        match m with
        | none => tSteps env f (acc ++ [⟨.nestWild, []⟩])
        | some v => tSteps env f (acc ++ [⟨.nestMember, [v]⟩])
    | .ch c =>
      if c == c! '.' then do
        let m ← tMember env
        match m with
        | none => tSteps env f (acc ++ [⟨.wild, []⟩])
        | some v => tSteps env f (acc ++ [⟨.member, [v]⟩])
      else if c == c! '[' then do
        let sub ← tBrackets env
        tSteps env f (acc ++ [sub])
      else T.fail (.unexpectedLexeme lx)
    | _ => T.fail (.unexpectedLexeme lx)

/-- paths/parsepath.go:34-102 `parsePath`. -/
def tPath (env : Env) : T Path := do
  T.tick 1
  tExpect (tLexPath env) (.ch (c! '$'))
  (fun s => tSteps env (pathFuel s) [] s : T Path)

/-- paths/parsepath.go:24-26 `ParsePath`, paths/parser.go:13-15. -/
def tParsePath (env : Env) (text : Bytes) : Res PErr Path × Nat := T.run (tPath env) text

end JP
