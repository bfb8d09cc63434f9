import Verif.Spec.JsText
import Verif.Model.Text
/-!
What the messages of parse errors say about the text, and when what they say is true of it.
`goQuote` and `quoteRune` are the verb `%q` of package fmt for strings and runes.
-/
namespace JP.Spec

/-- The bytes `w` are in the text, and the last of them is at an offset. -/
def EndsAt (text : Bytes) (off : Nat) (w : Bytes) : Prop :=
  ∃ a b, text = a ++ (w ++ b) ∧ a.length + w.length = off + 1

/-- The tokens that a message shows as they are written. -/
def signs : List Bytes :=
  [b! "(", b! ")", b! "[", b! "]", b! "*", b! "$", b! ":", b! ",", b! ".", b! "@", b! "~", b! "%", b! "+", b! "-", b! "/",
   b! "&", b! "|", b! "<", b! ">", b! "=", b! "!", b! "..", b! "?(", b! "&&", b! "||", b! "<=", b! ">=", b! "==", b! "!=",
   b! "=~", b! "in", b! "nin"]

/-- `Shown s w`: a message says `s` for a token that is written `w`. -/
inductive Shown : Bytes → Bytes → Prop
  | sign (w) : w ∈ signs → Shown w w
  | name (c w) : Letter c → All LetterDigitDash w → Shown (b! "identifier") (c :: w)
  | str (q t) : q = c! '"' ∨ q = c! '\'' → Shown (b! "string literal") (q :: (t ++ [q]))
  | int (ds) : Digits ds → Shown (b! "integer literal") ds
  | real (w next) : RealText w next → Shown (b! "floating-point literal") w

/-- What a message says stands before an offset: a token that ends there, or the end of the text. A token in
which there is an error is only called invalid. -/
inductive NamedAt (text : Bytes) (off : Nat) : Bytes → Prop
  | token (s w) : Shown s w → EndsAt text off w → NamedAt text off s
  | end_ : off = text.length - 1 → NamedAt text off (b! "end of expression")
  | invalid : off ≤ text.length - 1 → NamedAt text off (b! "(invalid token)")

/-- Every `q` has a backslash just before it. -/
def NoBare (q : UInt8) (t : Bytes) : Prop := ∀ a b, t = a ++ q :: b → ∃ a', a = a' ++ [c! '\\']

/-- The first byte after a backslash in a literal, other than the quotes. -/
def EscapeChar (c : UInt8) : Prop := c ∈ b! "\\/tfnrbu"

/-- A hexadecimal digit. -/
def HexDigit (c : UInt8) : Prop := ∃ n, Hex c n

/-- A message about a part of the text that is not a token, and what is then in the text. -/
inductive LexMessage (env : Env) (text : Bytes) : Bytes → Prop
  /-- A quote after which there is no other, unless after a backslash. -/
  | unclosed (a q b) : q = c! '"' ∨ q = c! '\'' → text = a ++ q :: b → NoBare q b →
      LexMessage env text (b! "unclosed string literal")
  | badEscape (a c b) : text = a ++ c! '\\' :: c :: b → ¬ EscapeChar c →
      LexMessage env text (b! "unknown character escape sequence")
  | shortEscape (a h c b) : text = a ++ (b! "\\u" ++ (h ++ c :: b)) → All HexDigit h → h.length < 4 → ¬ HexDigit c →
      LexMessage env text (b! "unicode escape needs 4 hex digits")
  | control (a q t c b) : q = c! '"' ∨ q = c! '\'' → text = a ++ q :: (t ++ c :: b) → c < 0x20 →
      LexMessage env text (b! "must use escape to encode ctrl character")
  /-- A minus sign before the largest integer. -/
  | overflow (a g ds b) : text = a ++ c! '-' :: (g ++ (ds ++ b)) → White g → Digits ds → Stops Digit b →
      decimal ds = 2 ^ 63 - 1 → LexMessage env text (b! "overflow of negative integer literal")
  /-- An exponent without digits. -/
  | badReal (a ds fs e sign b) : text = a ++ (ds ++ c! '.' :: (fs ++ e :: (sign ++ b))) → Digits ds → All Digit fs →
      e = c! 'e' ∨ e = c! 'E' → sign = [] ∨ sign = [c! '+'] ∨ sign = [c! '-'] → Stops Digit b →
      LexMessage env text (b! "invalid floating-point literal syntax")
  /-- A slash after which there is no other, unless after a backslash. -/
  | regexp (a b) : text = a ++ c! '/' :: b → NoBare (c! '/') b →
      LexMessage env text (b! "unclosed regular expression literal")
  | bigInt (a ds b) : text = a ++ (ds ++ b) → Digits ds → Stops Digit b → 2 ^ 63 ≤ decimal ds →
      LexMessage env text (b! "strconv.ParseInt: parsing " ++ goQuote env ds ++ b! ": value out of range")
  | bigReal (a w b) : text = a ++ (w ++ b) → RealText w b → env.parseFloat w = none →
      LexMessage env text (b! "strconv.ParseFloat: parsing " ++ goQuote env w ++ b! ": value out of range")
  /-- A byte at the offset. -/
  | char (a c b n) : text = a ++ c :: b → Numeral a.length n →
      LexMessage env text (b! "unexpected character " ++ quoteRune env c.toNat ++ b! " at offset " ++ n)
  /-- After a minus sign the byte named is the one after the offset. -/
  | minus (a g c b n) : text = a ++ c! '-' :: (g ++ c :: b) → White g → ¬ Digit c → ¬ Space c → Numeral (a.length + g.length) n →
      LexMessage env text (b! "unexpected character " ++ quoteRune env c.toNat ++ b! " at offset " ++ n)
  /-- At the end of the text it is the last one. -/
  | minusEnd (a g c b n) : text = a ++ c! '-' :: g → White g → c! '-' :: g = b ++ [c] → Numeral (a.length + g.length - 1) n →
      LexMessage env text (b! "unexpected character " ++ quoteRune env c.toNat ++ b! " at offset " ++ n)
  /-- A number that is too large is given by its sign and the offset of its last digit. -/
  | minusBig (a g ds b n) : text = a ++ c! '-' :: (g ++ (ds ++ b)) → White g → Digits ds → Stops Digit b → 2 ^ 63 ≤ decimal ds →
      Numeral (a.length + g.length + ds.length) n →
      LexMessage env text (b! "unexpected character '-' at offset " ++ n)
  /-- A question mark without a parenthesis; the message has the parenthesis for it. -/
  | query (a c b n) : text = a ++ c! '?' :: c :: b → c ≠ c! '(' → Numeral a.length n →
      LexMessage env text (b! "unexpected char " ++ quoteRune env c.toNat ++ b! " after '(' at offset " ++ n)
  | queryEnd (a n) : text = a ++ [c! '?'] → Numeral a.length n →
      LexMessage env text (b! "unexpected char " ++ quoteRune env 0xFFFD ++ b! " after '(' at offset " ++ n)

/-- A message of a parse error, and what is then in the text. -/
inductive Message (env : Env) (text : Bytes) : Bytes → Prop
  | lex (m) : LexMessage env text m → Message env text m
  /-- `c` is one of `$`, `]`, `)`. -/
  | expectedErr (c off n m) : c ∈ b! "$])" → off ≤ text.length - 1 → Numeral off n → LexMessage env text m →
      Message env text (b! "expected \"" ++ [c] ++ b! "\" at offset " ++ n ++ b! ", got " ++ m)
  | expected (c off n s) : c ∈ b! "$])" → Numeral off n → NamedAt text off s → s ≠ [c] →
      Message env text (b! "expected \"" ++ [c] ++ b! "\" at offset " ++ n ++ b! ", got " ++ s)
  | unexpected (off n s) : Numeral off n → NamedAt text off s →
      Message env text (b! "unexpected " ++ s ++ b! " at offset " ++ n)
  | unexpectedToken (off n s) : Numeral off n → NamedAt text off s →
      Message env text (b! "unexpected token " ++ s ++ b! " at offset " ++ n)
  | missingOperator (off n s) : Numeral off n → NamedAt text off s →
      Message env text (b! "missing operator at offset " ++ n ++ b! ", before " ++ s)
  | term (off s) : NamedAt text off s → Message env text (b! "unexpected token " ++ s ++ b! " in expression term")
  /-- Where a step should begin, a token with a value is shown with it. -/
  | sign (off w) : w ∈ signs → EndsAt text off w → Message env text (b! "unexpected token " ++ w)
  | name (off c w) : Letter c → All LetterDigitDash w → EndsAt text off (c :: w) →
      Message env text (b! "unexpected token identifier(" ++ (c :: w) ++ b! ")")
  | str (off w v) : StrLit w v → EndsAt text off w → Message env text (b! "unexpected token string literal(" ++ v ++ b! ")")
  /-- A literal at the end of the text whose last quote has a backslash before it. -/
  | strEnd (a q t v) : q = c! '"' ∨ q = c! '\'' → text = a ++ (q :: (t ++ [c! '\\', q])) → StrLit (q :: (t ++ [c! '\\', q, q])) v →
      Message env text (b! "unexpected token string literal(" ++ v ++ b! ")")
  | int (off ds t) : Digits ds → EndsAt text off ds → IntegerText (decimal ds) t →
      Message env text (b! "unexpected token integer literal(" ++ t ++ b! ")")
  | negInt (off g ds t) : White g → Digits ds → EndsAt text off (c! '-' :: (g ++ ds)) → IntegerText (-(decimal ds : Int)) t →
      Message env text (b! "unexpected token integer literal(" ++ t ++ b! ")")
  | wildInUnion (a b) : text = a ++ c! '*' :: b → c! ',' ∈ text → Message env text (b! "* cannot be in a union element list")
  | expInUnion (a b) : text = a ++ c! '(' :: b → c! ',' ∈ text → Message env text (b! "(exp) cannot be in a union element list")
  | filterInUnion (a b) : text = a ++ (b! "?(" ++ b) → c! ',' ∈ text →
      Message env text (b! "?(filter) cannot be in a union element list")
  /-- A parenthesis after something that is not a name. -/
  | notName (a b s) : text = a ++ c! '(' :: b → s ≠ b! "identifier" →
      Message env text (b! "expected identifier before '(', not " ++ s)
  | notField (a b) : text = a ++ c! '.' :: b → Message env text (b! "expected identifier in '.' selection")
  /-- The offset is that of the slash before a regular expression that package regexp does not accept. -/
  | regexp (a t v b n) : text = a ++ c! '/' :: (t ++ c! '/' :: b) → ReBody t v → env.reValid v = false → Numeral a.length n →
      Message env text (env.reError v ++ b! " at offset " ++ n)

end JP.Spec
