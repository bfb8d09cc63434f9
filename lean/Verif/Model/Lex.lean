import Verif.Model.Value
/-!
paths/rd.go, paths/tokens.go, paths/lex.go, paths/lexexpr.go, paths/lexpath.go: lexical analysis.
-/
namespace JP

/-! ## The reader: paths/rd.go -/

/-- paths/rd.go:16-19 `rd`: the bytes already consumed (most recent first) and those to come.
The position `pos` is the number of consumed bytes. The line number is never observable and is left out. -/
structure Rd where
  before : Bytes
  rest : Bytes
  deriving Repr, DecidableEq, Inhabited

namespace Rd
/-- paths/rd.go:22-32 `get`; `none` is `eof`. -/
def get (r : Rd) : Option UInt8 × Rd :=
  match r.rest with
  | [] => (none, r)
  | c :: cs => (some c, ⟨c :: r.before, cs⟩)
/-- paths/rd.go:35-42 `unget`. -/
def unget (r : Rd) : Rd :=
  match r.before with
  | [] => r
  | c :: cs => ⟨cs, c :: r.rest⟩
/-- paths/rd.go:45-51 `look`. -/
def look (r : Rd) : Option UInt8 := r.rest.head?
/-- paths/rd.go:58-64 `offset`. -/
def offset (r : Rd) : Nat := r.before.length - 1
end Rd

/-! ## Tokens: paths/tokens.go, paths/lex.go:12-64 -/

/-- paths/tokens.go:11-32 `token`: a single character or a named token. -/
inductive Tok where
  | ch (c : UInt8)
  | error | eof | id | string | int | nest | real | re | le | ge | eq | ne | filter
  | and | or | match_ | in_ | nin
  deriving DecidableEq, Repr, Inhabited

/-- Lexical errors: paths/lex.go:12-19, 277, 284; paths/lexexpr.go:8-10. -/
inductive LexErr where
  | unclosedString | badEscape | shortEscape | intOverflow | badReal | ctrlChar | unclosedRE
  | parseInt (s : Bytes)                                        -- strconv.ParseInt's error
  | parseFloat (s : Bytes)                                      -- strconv.ParseFloat's error
  | charAfter (look : Option UInt8) (c : UInt8) (off : Nat)     -- lex.go:277
  | unexpectedChar (c : Option UInt8) (off : Nat)               -- lex.go:284
  deriving DecidableEq, Repr, Inhabited

/-- The optional value of a token: paths/lex.go:24. -/
inductive LVal where
  | none
  | str (s : Bytes)
  | int (n : Int64)
  | float (f : F64)
  deriving DecidableEq, Repr, Inhabited

/-- paths/lex.go:22-27 `lexeme`. -/
structure Lexeme where
  tok : Tok
  val : LVal
  err : Option LexErr
  deriving DecidableEq, Repr, Inhabited

/-- A token without value or error. -/
def Lexeme.plain (t : Tok) : Lexeme := ⟨t, .none, none⟩
/-- paths/lex.go:101-103 `lexErr`. -/
def Lexeme.fail (e : LexErr) : Lexeme := ⟨.error, .none, some e⟩

/-! ## Character classes: paths/lex.go:287-314 -/

/-- paths/lex.go:291-293. -/
def isHexDigit (c : UInt8) : Bool :=
  isDigit c || (c! 'a' ≤ c && c ≤ c! 'f') || (c! 'A' ≤ c && c ≤ c! 'F')
/-- paths/lex.go:297-299. -/
def isLetter (c : UInt8) : Bool :=
  (c! 'a' ≤ c && c ≤ c! 'z') || (c! 'A' ≤ c && c ≤ c! 'Z') || c == c! '_' || 0x80 ≤ c
/-- paths/lex.go:301-303. -/
def isAlphanumeric (c : UInt8) : Bool := isLetter c || isDigit c
/-- paths/lex.go:306-308. -/
def isAlphanumericDash (c : UInt8) : Bool := isLetter c || isDigit c || c == c! '-'
/-- paths/lex.go:312-314: space, tab, newline, carriage return, form feed, vertical tab. -/
def isSpace (c : UInt8) : Bool := c == 32 || c == 9 || c == 10 || c == 13 || c == 12 || c == 11

/-! ## Lexical scanners: paths/lex.go -/

/-- The loop `for p(r.look()) { sb.WriteByte(byte(r.get())) }` (paths/lex.go:107-109, 119-121, 159-161):
the bytes taken, and the reader after. -/
def takeWhileGo (p : UInt8 → Bool) (before : Bytes) : Bytes → Bytes × Rd
  | [] => ([], ⟨before, []⟩)
  | c :: cs =>
    if p c then
      let (taken, r) := takeWhileGo p (c :: before) cs
      (c :: taken, r)
    else ([], ⟨before, c :: cs⟩)

/-- See `takeWhileGo`. -/
def Rd.takeWhile (p : UInt8 → Bool) (r : Rd) : Bytes × Rd := takeWhileGo p r.before r.rest

/-- paths/lex.go:106-111 `ws`. -/
def Rd.ws (r : Rd) : Rd := (r.takeWhile isSpace).2

/-- paths/lex.go:115-152 `lexNumber`. `real` allows a fraction and exponent. -/
def lexNumber (env : Env) (real : Bool) (r : Rd) : Lexeme × Rd :=
  let r := r.unget
  let (ds, r) := r.takeWhile isDigit
  if !real || r.look != some (c! '.') then
    match parseInt ds with
    | none => (.fail (.parseInt ds), r)
    | some v => (⟨.int, .int v, none⟩, r)
  else
    let r := r.get.2
    let (fs, r) := r.takeWhile isDigit
    let text := ds ++ c! '.' :: fs
    let finish (text : Bytes) (r : Rd) : Lexeme × Rd :=
      match env.parseFloat text with
      | none => (.fail (.parseFloat text), r)
      | some f => (⟨.real, .float f, none⟩, r)
    match r.get with
    | (some e, r') =>
      if e == c! 'e' || e == c! 'E' then
        let (sign, r'') := match r'.get with
          | (some s, r'') => if s == c! '+' || s == c! '-' then ([s], r'') else ([], r')
          | _ => ([], r')
        let (es, r''') := r''.takeWhile isDigit
        if es.isEmpty then (.fail .badReal, r'')
        else finish (text ++ e :: sign ++ es) r'''
      else finish text r
    | (none, _) => finish text r

/-- paths/lex.go:155-163 `lexID`. -/
def lexID (p : UInt8 → Bool) (r : Rd) : Lexeme × Rd :=
  let (s, r) := r.unget.takeWhile p
  (⟨.id, .str s, none⟩, r)

/-- Value of a hexadecimal digit. -/
def hexVal (c : UInt8) : Nat :=
  if isDigit c then c.toNat - 48
  else if c! 'a' ≤ c && c ≤ c! 'f' then c.toNat - 87
  else c.toNat - 55

/-- paths/lex.go:243-256: up to `n` hexadecimal digits, accumulating their value.
On an error the value is not used by the caller. -/
def hexDigits : (n : Nat) → (acc : Nat) → Rd → Except LexErr Nat × Rd
  | 0, acc, r => (.ok acc, r)
  | n + 1, acc, r =>
    match r.get with
    | (none, r) => (.error .unclosedString, r)
    | (some c, r') =>
      if isHexDigit c then hexDigits n (acc * 16 + hexVal c) r'
      else (.error .shortEscape, r'.unget)

/-- paths/lex.go:222-267 `escaped`. -/
def escaped (cq : UInt8) (r : Rd) : Except LexErr Nat × Rd :=
  match r.get with
  | (none, r) => (.error .unclosedString, r)
  | (some c, r) =>
    if c == c! '\\' || c == c! '/' then (.ok c.toNat, r)
    else if c == c! 't' then (.ok 9, r)
    else if c == c! 'f' then (.ok 12, r)
    else if c == c! 'n' then (.ok 10, r)
    else if c == c! 'r' then (.ok 13, r)
    else if c == c! 'b' then (.ok 8, r)
    else if c == c! 'u' then hexDigits 4 0 r
    else if c != cq then (.error .badEscape, r.unget)
    else (.ok cq.toNat, r)

/-- `utf16.IsSurrogate`. -/
def isSurrogate (r : Nat) : Bool := 0xD800 ≤ r && r ≤ 0xDFFF
/-- `utf16.DecodeRune`: U+FFFD unless a high surrogate is followed by a low one. -/
def decodeSurrogates (hi lo : Nat) : Nat :=
  if 0xD800 ≤ hi && hi ≤ 0xDBFF && 0xDC00 ≤ lo && lo ≤ 0xDFFF then
    (hi - 0xD800) * 1024 + (lo - 0xDC00) + 0x10000
  else 0xFFFD

/-- Result of scanning a string literal: its value or an error, and the reader; or out of fuel. -/
abbrev StrRes := Option (Except LexErr Bytes × Rd)

mutual
/-- paths/lex.go:170-216: the outer loop of `lexString`. `acc` is the text so far. -/
def strLoop (cq : UInt8) : (fuel : Nat) → (acc : Bytes) → Rd → StrRes
  | 0, _, _ => none
  | f + 1, acc, r =>
    match r.get with
    | (none, r) => some (.error .unclosedString, r)
    | (some c, r) =>
      if c == cq then some (.ok acc, r)
      else if c == c! '\\' then escLoop cq f acc 0 r
      else if c < 0x20 then some (.error .ctrlChar, r)
      else strLoop cq f (acc ++ [c]) r
/-- paths/lex.go:181-207: the inner loop over adjacent escapes, entered just after a backslash;
`surr` is a pending surrogate or 0.  The loop is left by `r.get()` returning something that is not a
backslash, followed by `r.unget()` (203) -- which at the end of the text backs up over a byte that
was not read by that `get`. -/
def escLoop (cq : UInt8) : (fuel : Nat) → (acc : Bytes) → (surr : Nat) → Rd → StrRes
  | 0, _, _, _ => none
  | f + 1, acc, surr, r =>
    match escaped cq r with
    | (.error e, r) => some (.error e, r)
    | (.ok rv, r) =>
      let (acc, surr) :=
        if surr != 0 then
          let paired := decodeSurrogates surr rv
          let acc := acc ++ encodeRune paired
          if paired != 0xFFFD then (acc, 0) else (acc ++ encodeRune rv, 0)
        else if isSurrogate rv then (acc, rv)
        else (acc ++ encodeRune rv, 0)
      match r.get with
      | (some 92, r) => escLoop cq f acc surr r
      | (_, r) =>
        let r := r.unget
        let acc := if surr != 0 then acc ++ encodeRune 0xFFFD else acc
        strLoop cq f acc r
end

/-- paths/lex.go:167-217 `lexString`, entered after the opening quote `cq`. -/
def lexString (cq : UInt8) (r : Rd) : StrRes := strLoop cq (2 * r.rest.length + 4) [] r

/-- paths/lex.go:270-280 `isNext`. -/
def isNext (c : UInt8) (t f : Tok) (r : Rd) : Lexeme × Rd :=
  if r.look == some c then (.plain t, r.get.2)
  else if f == .error then (.fail (.charAfter r.look c r.offset), r)
  else (.plain f, r)

/-- paths/lex.go:283-285 `tokenErr`. -/
def tokenErr (c : Option UInt8) (r : Rd) : Lexeme × Rd := (.fail (.unexpectedChar c r.offset), r)

/-- The cases `'"', '\''` of `lexExpr` and `lexPath`: paths/lexexpr.go:44-49, paths/lexpath.go:23-28. -/
def lexQuoted (cq : UInt8) (r : Rd) : Option (Lexeme × Rd) :=
  match lexString cq r with
  | none => none
  | some (.error e, r) => some (.fail e, r)
  | some (.ok s, r) => some (⟨.string, .str s, none⟩, r)

/-- The single-character tokens of expressions: paths/lexexpr.go:24-27. -/
def isExprPunct (c : UInt8) : Bool :=
  c == c! '(' || c == c! ')' || c == c! '[' || c == c! ']' || c == c! '@' || c == c! '$'
  || c == c! '.' || c == c! ',' || c == c! '~' || c == c! '*' || c == c! '%' || c == c! '+'
  || c == c! '-' || c == c! '/'

/-- paths/lexexpr.go:14-59 `lexExpr`, without the lookahead (see `lexExprP`). -/
def lexExpr (env : Env) (r : Rd) : Option (Lexeme × Rd) :=
  match r.ws.get with
  | (none, r) => some (.plain .eof, r)
  | (some c, r) =>
    if isExprPunct c then some (.plain (.ch c), r)
    else if c == c! '&' then some (isNext (c! '&') .and (.ch (c! '&')) r)
    else if c == c! '|' then some (isNext (c! '|') .or (.ch (c! '|')) r)
    else if c == c! '<' then some (isNext (c! '=') .le (.ch (c! '<')) r)
    else if c == c! '>' then some (isNext (c! '=') .ge (.ch (c! '>')) r)
    else if c == c! '=' then
      let (lx, r) := isNext (c! '=') .eq (.ch (c! '=')) r
      if lx.tok != .ch (c! '=') then some (lx, r)
      else some (isNext (c! '~') .match_ (.ch (c! '=')) r)
    else if c == c! '!' then some (isNext (c! '=') .ne (.ch (c! '!')) r)
    else if c == c! '"' || c == c! '\'' then lexQuoted c r
    else if isDigit c then some (lexNumber env true r)
    else if isLetter c then some (lexID isAlphanumeric r)
    else some (tokenErr (some c) r)

/-- paths/lexexpr.go:64-80 `lexRegexp`, entered after the opening slash; structural on the rest of
the text. -/
def lexRegexpGo (ec : UInt8) (before : Bytes) (acc : Bytes) : Bytes → Lexeme × Rd
  | [] => (⟨.re, .str acc, some .unclosedRE⟩, ⟨before, []⟩)
  | [c] =>
    if c == ec then (⟨.re, .str acc, none⟩, ⟨c :: before, []⟩)
    else (⟨.re, .str (acc ++ [c]), some .unclosedRE⟩, ⟨c :: before, []⟩)
  | c :: d :: ds =>
    if c == ec then (⟨.re, .str acc, none⟩, ⟨c :: before, d :: ds⟩)
    else if c == c! '\\' && d == ec then lexRegexpGo ec (d :: c :: before) (acc ++ [ec]) ds
    else lexRegexpGo ec (c :: before) (acc ++ [c]) (d :: ds)

/-- See `lexRegexpGo`. -/
def lexRegexp (ec : UInt8) (r : Rd) : Lexeme × Rd := lexRegexpGo ec r.before [] r.rest

/-- The single-character tokens of paths: paths/lexpath.go:17. -/
def isPathPunct (c : UInt8) : Bool :=
  c == c! '(' || c == c! ')' || c == c! '[' || c == c! ']' || c == c! '*' || c == c! '$'
  || c == c! ':' || c == c! ','

/-- paths/lexpath.go:7-54 `lexPath`, without the lookahead (see `lexPathP`). -/
def lexPath (env : Env) (r : Rd) : Option (Lexeme × Rd) :=
  match r.ws.get with
  | (none, r) => some (.plain .eof, r)
  | (some c, r) =>
    if isPathPunct c then some (.plain (.ch c), r)
    else if c == c! '.' then some (isNext (c! '.') .nest (.ch (c! '.')) r)
    else if c == c! '?' then some (isNext (c! '(') .filter .error r)
    else if c == c! '"' || c == c! '\'' then lexQuoted c r
    else if c == c! '-' then
      let (d, r) := r.ws.get
      if !(d.any isDigit) then
        let r := r.unget
        some (tokenErr r.look r)
      else
        let (fol, r) := lexNumber env false r
        if fol.tok != .int then some (tokenErr (some c) r)
        else match fol.val with
          | .int n =>
            if n == Int64.maxValue then some (.fail .intOverflow, r)
            else some ({ fol with val := .int (-n) }, r)
          | _ => none  -- unreachable: `fol.val.(int64)` would panic
    else if isDigit c then some (lexNumber env false r)
    else if isLetter c then some (lexID isAlphanumericDash r)
    else some (tokenErr (some c) r)

end JP
