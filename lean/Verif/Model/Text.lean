import Verif.Model.Parse
import Verif.Model.Coder
/-!
Texts: `strconv.Quote`, messages of errors, and the text of a program (mach/text.go).
-/
namespace JP

/-! ## Quoting (standard library, strconv) -/

/-- The first rune of a string as decoded by `unicode/utf8`; U+FFFD if the encoding is invalid. -/
def runeAt (s : Bytes) : Nat :=
  match runeLen s, s with
  | 1, a :: _ => if a < 0x80 then a.toNat else 0xFFFD
  | 2, a :: b :: _ => a.toNat % 32 * 64 + b.toNat % 64
  | 3, a :: b :: c :: _ => a.toNat % 16 * 4096 + b.toNat % 64 * 64 + c.toNat % 64
  | 4, a :: b :: c :: d :: _ => a.toNat % 8 * 262144 + b.toNat % 64 * 4096 + c.toNat % 64 * 64 + d.toNat % 64
  | _, _ => 0xFFFD

/-- `strconv.IsPrint`: the ASCII part, and the tables for other characters as a parameter; U+FEFF is not
printable. -/
def isPrint (env : Env) (r : Nat) : Bool :=
  if r < 0x80 then 0x20 ≤ r && r < 0x7F else r != 0xFEFF && env.isPrint r

/-- A digit of a hexadecimal number, in lower case. -/
def lowerHex (n : Nat) : UInt8 := UInt8.ofNat (if n < 10 then 48 + n else 87 + n)

/-- The last `k` hexadecimal digits of a number. -/
def lastHex : (k n : Nat) → Bytes
  | 0, _ => []
  | k + 1, n => lastHex k (n / 16) ++ [lowerHex (n % 16)]

/-- `strconv.appendEscapedRune` for quote character `q`. -/
def escapedRune (env : Env) (q : UInt8) (r : Nat) : Bytes :=
  if r = q.toNat ∨ r = 92 then [92, UInt8.ofNat r]
  else if isPrint env r then encodeRune r
  else if r = 7 then b! "\\a"
  else if r = 8 then b! "\\b"
  else if r = 12 then b! "\\f"
  else if r = 10 then b! "\\n"
  else if r = 13 then b! "\\r"
  else if r = 9 then b! "\\t"
  else if r = 11 then b! "\\v"
  else if r < 32 ∨ r = 0x7F then b! "\\x" ++ lastHex 2 r
  else if (0xD800 ≤ r ∧ r ≤ 0xDFFF) ∨ 0x10FFFF < r then b! "\\ufffd"
  else if r < 0x10000 then b! "\\u" ++ lastHex 4 r
  else b! "\\U" ++ lastHex 8 r

/-- `strconv.appendQuotedWith`, without the quotes. -/
def quotedBody (env : Env) : (fuel : Nat) → Bytes → Bytes
  | 0, _ => []
  | _ + 1, [] => []
  | f + 1, s@(a :: _) =>
    (if runeLen s = 1 ∧ runeAt s = 0xFFFD then b! "\\x" ++ lastHex 2 a.toNat else escapedRune env (c! '"') (runeAt s)) ++
      quotedBody env f (s.drop (runeLen s))

/-- `strconv.Quote`, and `%q` for strings. -/
def goQuote (env : Env) (s : Bytes) : Bytes := c! '"' :: (quotedBody env s.length s ++ [c! '"'])

/-- `strconv.QuoteRune`, and `%q` for runes. -/
def quoteRune (env : Env) (r : Nat) : Bytes :=
  c! '\'' :: (escapedRune env (c! '\'') (if (0xD800 ≤ r ∧ r ≤ 0xDFFF) ∨ 0x10FFFF < r then 0xFFFD else r) ++ [c! '\''])

/-- `strconv.CanBackquote`. -/
def canBackquoteGo : (fuel : Nat) → Bytes → Bool
  | 0, _ => true
  | _ + 1, [] => true
  | f + 1, s@(_ :: _) =>
    let r := runeAt s
    if 1 < runeLen s then r != 0xFEFF && canBackquoteGo f (s.drop (runeLen s))
    else if r = 0xFFFD ∨ (r < 32 ∧ r ≠ 9) ∨ r = 96 ∨ r = 0x7F then false
    else canBackquoteGo f (s.drop (runeLen s))

/-- `strconv.CanBackquote`. -/
def canBackquote (s : Bytes) : Bool := canBackquoteGo s.length s

/-- jsonpath.go:67-72 `quote`. -/
def quote (env : Env) (s : Bytes) : Bytes :=
  if canBackquote s then c! '`' :: (s ++ [c! '`']) else goQuote env s

/-! ## Names of tokens and operators -/

/-- paths/tokens.go:74-100 `token.String`. -/
def Tok.text : Tok → Bytes
  | .ch c => encodeRune c.toNat
  | .error => b! "(invalid token)"
  | .eof => b! "end of expression"
  | .id => b! "identifier"
  | .string => b! "string literal"
  | .int => b! "integer literal"
  | .nest => b! ".."
  | .real => b! "floating-point literal"
  | .re => b! "regular expression"
  | .le => b! "<="
  | .ge => b! ">="
  | .eq => b! "=="
  | .ne => b! "!="
  | .filter => b! "?("
  | .and => b! "&&"
  | .or => b! "||"
  | .match_ => b! "=~"
  | .in_ => b! "in"
  | .nin => b! "nin"

/-- paths/tokens.go:35-42 `hasVal`. -/
def Tok.hasVal : Tok → Bool
  | .id | .string | .int | .real | .re => true
  | _ => false

/-- paths/ops.go:76-125 `opNames`: `Op.GoString`. -/
def Op.name : Op → Bytes
  | .error => b! "OpError" | .id => b! "OpID" | .string => b! "OpString" | .int => b! "OpInt"
  | .bool => b! "OpBool" | .real => b! "OpReal" | .re => b! "OpRE" | .null => b! "OpNull"
  | .bounds => b! "OpBounds" | .root => b! "OpRoot" | .current => b! "OpCurrent" | .dot => b! "OpDot"
  | .select => b! "OpSelect" | .member => b! "OpMember" | .index => b! "OpIndex" | .slice => b! "OpSlice"
  | .union => b! "OpUnion" | .wild => b! "OpWild" | .filter => b! "OpFilter" | .exp => b! "OpExp"
  | .for_ => b! "OpFor" | .rep => b! "OpRep" | .nest => b! "OpNest" | .nestMember => b! "OpNestMember"
  | .nestSelect => b! "OpNestSelect" | .nestUnion => b! "OpNestUnion" | .nestWild => b! "OpNestWild"
  | .nestFilter => b! "OpNestFilter" | .lt => b! "OpLT" | .le => b! "OpLE" | .eq => b! "OpEQ"
  | .ne => b! "OpNE" | .ge => b! "OpGE" | .gt => b! "OpGT" | .and => b! "OpAnd" | .or => b! "OpOr"
  | .mul => b! "OpMul" | .div => b! "OpDiv" | .mod => b! "OpMod" | .neg => b! "OpNeg" | .add => b! "OpAdd"
  | .sub => b! "OpSub" | .call => b! "OpCall" | .array => b! "OpArray" | .in_ => b! "OpIn"
  | .nin => b! "OpNin" | .match_ => b! "OpMatch" | .not => b! "OpNot"

/-- paths/ops.go:127-176 `opText`: `Op.String`. -/
def Op.text : Op → Bytes
  | .error => b! "(error)" | .id => b! "identifier" | .string => b! "string" | .int => b! "integer"
  | .bool => b! "bool" | .real => b! "real number" | .re => b! "regular expression" | .null => b! "null"
  | .bounds => b! "[lb:ub:stride]" | .root => b! "$" | .current => b! "@" | .dot => b! "."
  | .select => b! "[]selection" | .member => b! ". selection" | .index => b! "[]index" | .slice => b! "[]slice"
  | .union => b! "[]union" | .wild => b! "*" | .filter => b! "?(filter)" | .exp => b! "(exp)"
  | .for_ => b! "loop start" | .rep => b! "loop end" | .nest => b! ".." | .nestMember => b! "..member"
  | .nestSelect => b! "..[]selection" | .nestUnion => b! "..[]union" | .nestWild => b! "..*"
  | .nestFilter => b! "..$(filter)" | .lt => b! "<" | .le => b! "<=" | .eq => b! "==" | .ne => b! "!="
  | .ge => b! ">=" | .gt => b! ">" | .and => b! "&&" | .or => b! "||" | .mul => b! "*" | .div => b! "/"
  | .mod => b! "%" | .neg => b! "unary -" | .add => b! "+" | .sub => b! "-" | .call => b! "function call"
  | .array => b! "array value" | .in_ => b! "in" | .nin => b! "nin" | .match_ => b! "~" | .not => b! "!"

/-! ## Messages of the errors that Compile returns -/

/-- `strconv.NumError.Error`: paths/lex.go:126,149 return it unchanged. -/
def numError (env : Env) (fn s : Bytes) (syntaxOK : Bool) : Bytes :=
  b! "strconv." ++ fn ++ b! ": parsing " ++ goQuote env s ++ b! ": " ++
    (if syntaxOK then b! "value out of range" else b! "invalid syntax")

/-- paths/rd.go:58-64 `offset`. -/
def offsetText (off : Nat) : Bytes := b! "offset " ++ natToBytes off

/-- `rune(c)` of the next byte; `eof` is -1, which `%q` writes as U+FFFD. -/
def lookRune (env : Env) : Option UInt8 → Bytes
  | some c => quoteRune env c.toNat
  | none => quoteRune env 0xFFFD

/-- paths/lex.go:13-18, 277, 284; paths/lexexpr.go:9. -/
def LexErr.text (env : Env) : LexErr → Bytes
  | .unclosedString => b! "unclosed string literal"
  | .badEscape => b! "unknown character escape sequence"
  | .shortEscape => b! "unicode escape needs 4 hex digits"
  | .intOverflow => b! "overflow of negative integer literal"
  | .badReal => b! "invalid floating-point literal syntax"
  | .ctrlChar => b! "must use escape to encode ctrl character"
  | .unclosedRE => b! "unclosed regular expression literal"
  | .parseInt s => numError env (b! "ParseInt") s (digitsVal s).isSome
  | .parseFloat s => numError env (b! "ParseFloat") s (decimal? (signed s).2).isSome
  | .charAfter l c off => b! "unexpected char " ++ lookRune env l ++ b! " after " ++ quoteRune env c.toNat ++ b! " at " ++ offsetText off
  | .unexpectedChar c off => b! "unexpected character " ++ lookRune env c ++ b! " at " ++ offsetText off

/-- `%v` of a token's value. -/
def LVal.text : LVal → Bytes
  | .none => b! "<nil>"
  | .str s => s
  | .int n => intToBytes n.toInt
  | .float f => fmtFloat f

/-- paths/lex.go:30-38 `lexeme.String`. -/
def Lexeme.text (env : Env) (lx : Lexeme) : Bytes :=
  match lx.err with
  | some e => c! '!' :: e.text env
  | none => if lx.tok.hasVal then lx.tok.text ++ c! '(' :: (lx.val.text ++ [c! ')']) else lx.tok.text

/-- The messages of parse errors. -/
def PErr.text (env : Env) : PErr → Bytes
  | .lex e => e.text env
  | .expectedErr nt off e => b! "expected " ++ goQuote env nt.text ++ b! " at " ++ offsetText off ++ b! ", got " ++ e.text env
  | .expected nt off got => b! "expected " ++ goQuote env nt.text ++ b! " at " ++ offsetText off ++ b! ", got " ++ got.text
  | .unexpectedLexeme lx => b! "unexpected token " ++ lx.text env
  | .inUnion op => op.text ++ b! " cannot be in a union element list"
  | .unexpectedAt tok off => b! "unexpected " ++ tok.text ++ b! " at " ++ offsetText off
  | .unexpectedTokenAt tok off => b! "unexpected token " ++ tok.text ++ b! " at " ++ offsetText off
  | .missingOperator off tok => b! "missing operator at " ++ offsetText off ++ b! ", before " ++ tok.text
  | .notIdentifier op => b! "expected identifier before '(', not " ++ op.text
  | .notField => b! "expected identifier in '.' selection"
  | .badRegexp pattern off => env.reError pattern ++ b! " at " ++ offsetText off
  | .unexpectedTerm tok => b! "unexpected token " ++ tok.text ++ b! " in expression term"

/-- mach/coder.go:11. -/
def CErr.text : CErr → Bytes
  | .tooManyVals => b! "program has too many values"

/-! ## The text of a program: mach/text.go -/

/-- paths/expr.go:41-107: `String` of an expression. An interior node is only the name of its operator, since
`%#v` uses the `GoString` method of the embedded `Op`. -/
def Expr.text (env : Env) : Expr → Bytes
  | .int n => intToBytes n.toInt
  | .float f => fmtFloat f
  | .str s => goQuote env s
  | .bool b => if b then b! "true" else b! "false"
  | .null => b! "null"
  | .name s => s
  | .current => b! "@"
  | .root => b! "$"
  | .re p => b! "Regexp(" ++ goQuote env p ++ b! ")"
  | .inner op _ => op.name

/-- `String` of a bound of a slice. -/
def Bound.text (env : Env) : Bound → Bytes
  | .int n => intToBytes n.toInt
  | .expr e => e.text env

/-- paths/val.go:95-110 `Slice.String`. -/
def Slice.text (env : Env) (s : Slice) : Bytes :=
  c! '[' :: ((match s.start with | some b => b.text env | none => []) ++ c! ':' ::
    ((match s.stop with | some b => b.text env | none => []) ++
      ((match s.stride with | some b => c! ':' :: b.text env | none => []) ++ [c! ']'])))

/-- `String` of the constants of a program: paths/val.go:43-45, 50-52, 77-79, 95-110; mach/program.go:80-82,
103-105. -/
def PVal.text (env : Env) : PVal → Bytes
  | .int n => intToBytes n.toInt
  | .str s => goQuote env s
  | .name s => s
  | .slice s => s.text env
  | .float f => fmtFloat f
  | .re p => goQuote env p

/-- mach/text.go:51-57 `trimOp`, for operators that have a name. -/
def trimOp (op : Op) : Bytes := op.name.drop 2

/-- One order: mach/text.go:27-46; `none` is a panic, that of `trimOp` for a number that is no operator's, or
that of `index`. -/
def Order.text (o : Order) : Option Bytes :=
  match Op.ofNat? o.opNum with
  | none => none
  | some op =>
    let name := trimOp op
    if op.isLeaf then
      if !op.hasVal then some name
      else if o.isSmallInt then some (name ++ c! '(' :: (intToBytes o.smallInt.toInt ++ [c! ')']))
      else match o.index with
        | some i => some (name ++ c! '[' :: (natToBytes i.toNat ++ [c! ']']))
        | none => none
    else if o.isSmallInt && o.smallInt != 0 then some (name ++ c! '.' :: intToBytes o.smallInt.toInt)
    else some name

/-- Texts with a space between them. -/
def spaced : List Bytes → Bytes
  | [] => []
  | [t] => t
  | t :: ts => t ++ c! ' ' :: spaced ts

/-- mach/text.go:11-49 `Program.String`; `none` is a panic. -/
def Program.text (env : Env) (p : Program) : Option Bytes :=
  (p.orders.mapM Order.text).map fun os =>
    spaced (p.vals.map (PVal.text env)) ++ (if p.vals.isEmpty then [] else [c! ' ']) ++ spaced os

end JP
