import Verif.Spec.Grammar
/-!
How tokens are spelled: which texts are tokens, by the rules for paths and by those for expressions, and
how tokens and white space make up a text.
-/
namespace JP.Spec

/-- A decimal digit. -/
def Digit (c : UInt8) : Prop := c! '0' ≤ c ∧ c ≤ c! '9'
/-- A letter, an underscore, or any byte of a character outside ASCII. -/
def Letter (c : UInt8) : Prop :=
  (c! 'a' ≤ c ∧ c ≤ c! 'z') ∨ (c! 'A' ≤ c ∧ c ≤ c! 'Z') ∨ c = c! '_' ∨ 0x80 ≤ c
/-- A character of an identifier in an expression, after the first. -/
def LetterDigit (c : UInt8) : Prop := Letter c ∨ Digit c
/-- A character of an identifier in a path, after the first. -/
def LetterDigitDash (c : UInt8) : Prop := Letter c ∨ Digit c ∨ c = c! '-'
/-- Blank, tab, newline, carriage return, form feed, vertical tab. -/
def Space (c : UInt8) : Prop := c = 32 ∨ c = 9 ∨ c = 10 ∨ c = 13 ∨ c = 12 ∨ c = 11

/-- Every byte of the text is in a class. -/
def All (p : UInt8 → Prop) (w : Bytes) : Prop := ∀ c ∈ w, p c
/-- The text does not begin with a byte of a class. -/
def Stops (p : UInt8 → Prop) (next : Bytes) : Prop := ∀ c, next.head? = some c → ¬ p c
/-- White space. -/
def White (w : Bytes) : Prop := All Space w
/-- One or more digits. -/
def Digits (ds : Bytes) : Prop := ds ≠ [] ∧ All Digit ds

/-- The value of a sequence of digits. -/
def decimal (ds : Bytes) : Nat := ds.foldl (fun n d => 10 * n + (d.toNat - 48)) 0

/-! ## String literals -/

/-- The code of a character in UTF-8; what is not a character becomes U+FFFD. -/
def utf8 (n : Nat) : Bytes :=
  String.utf8EncodeChar (if n.isValidChar then Char.ofNat n else '�')

/-- The characters of a string, counted. A byte at which no encoding of a character begins counts as one. -/
inductive Characters : Bytes → Nat → Prop
  | nil : Characters [] 0
  | char (r t n) : r.isValidChar → Characters t n → Characters (utf8 r ++ t) (n + 1)
  | stray (c t n) : (∀ r u, r.isValidChar → c :: t ≠ utf8 r ++ u) → Characters t n → Characters (c :: t) (n + 1)

/-- A hexadecimal digit and its value. -/
inductive Hex : UInt8 → Nat → Prop
  | digit (n : Nat) : n < 10 → Hex (UInt8.ofNat (48 + n)) n
  | lower (n : Nat) : n < 6 → Hex (UInt8.ofNat (97 + n)) (10 + n)
  | upper (n : Nat) : n < 6 → Hex (UInt8.ofNat (65 + n)) (10 + n)

/-- The escapes of a literal in the quotes `q`, and what they stand for. -/
inductive Escape (q : UInt8) : Bytes → Nat → Prop
  | quote : Escape q [c! '\\', q] q.toNat
  | backslash : Escape q (b! "\\\\") 0x5C
  | slash : Escape q (b! "\\/") 0x2F
  | tab : Escape q (b! "\\t") 9
  | formFeed : Escape q (b! "\\f") 12
  | newline : Escape q (b! "\\n") 10
  | return : Escape q (b! "\\r") 13
  | backspace : Escape q (b! "\\b") 8
  | unicode (a b c d i j k l) : Hex a i → Hex b j → Hex c k → Hex d l →
      Escape q [c! '\\', c! 'u', a, b, c, d] (4096 * i + 256 * j + 16 * k + l)

/-- One or more escapes in a row. -/
inductive Escapes (q : UInt8) : Bytes → List Nat → Prop
  | one (t u) : Escape q t u → Escapes q t [u]
  | cons (t u ts us) : Escape q t u → Escapes q ts us → Escapes q (t ++ ts) (u :: us)

/-- Surrogates: the codes with which UTF-16 writes larger characters. -/
def Surrogate (u : Nat) : Prop := 0xD800 ≤ u ∧ u < 0xE000
/-- A pair of surrogates that stands for a character. -/
def SurrogatePair (u w : Nat) : Prop := 0xD800 ≤ u ∧ u < 0xDC00 ∧ 0xDC00 ≤ w ∧ w < 0xE000
instance (u : Nat) : Decidable (Surrogate u) := inferInstanceAs (Decidable (_ ∧ _))
instance (u w : Nat) : Decidable (SurrogatePair u w) := inferInstanceAs (Decidable (_ ∧ _))
/-- The character that a pair of surrogates stands for. -/
def ofPair (u w : Nat) : Nat := 0x10000 + (u - 0xD800) * 0x400 + (w - 0xDC00)

/-- The characters that adjacent escapes stand for. A surrogate is taken together with the escape after it;
if they are not a pair, both are taken for themselves (and so are not looked at again, even if the second
is the first of a pair). What is not a character becomes U+FFFD. -/
def runes : List Nat → Bytes
  | [] => []
  | [u] => utf8 u
  | u :: w :: us =>
    if SurrogatePair u w then utf8 (ofPair u w) ++ runes us
    else if Surrogate u then utf8 u ++ utf8 w ++ runes us
    else utf8 u ++ runes (w :: us)

/-- The inside of a literal in the quotes `q`, and the bytes it stands for. -/
inductive StrBody (q : UInt8) : Bytes → Bytes → Prop
  | nil : StrBody q [] []
  | plain (c t v) : c ≠ q → c ≠ c! '\\' → 0x20 ≤ c → StrBody q t v → StrBody q (c :: t) (c :: v)
  | escapes (es us t v) : Escapes q es us → Stops (· = c! '\\') t → StrBody q t v → StrBody q (es ++ t) (runes us ++ v)

/-- A string literal and the bytes it stands for. -/
inductive StrLit : Bytes → Bytes → Prop
  | single (t v) : StrBody (c! '\'') t v → StrLit (c! '\'' :: (t ++ [c! '\''])) v
  | double (t v) : StrBody (c! '"') t v → StrLit (c! '"' :: (t ++ [c! '"'])) v

/-! ## Regular expressions -/

/-- The inside of a literal regular expression, and the expression it stands for. -/
inductive ReBody : Bytes → Bytes → Prop
  | nil : ReBody [] []
  | slash (t v) : ReBody t v → ReBody (c! '\\' :: c! '/' :: t) (c! '/' :: v)
  | plain (c t v) : c ≠ c! '/' → c ≠ c! '\\' → ReBody t v → ReBody (c :: t) (c :: v)
  | backslash (c t v) : c ≠ c! '/' → ReBody (c :: t) v → ReBody (c! '\\' :: c :: t) (c! '\\' :: v)

/-! ## Numbers -/

/-- An exponent that may be missing. -/
inductive Exponent : Bytes → Prop
  | none : Exponent []
  | some (e sign ds) : e = c! 'e' ∨ e = c! 'E' → sign = [] ∨ sign = [c! '+'] ∨ sign = [c! '-'] → Digits ds →
      Exponent (e :: (sign ++ ds))

/-- A number with a fraction, and perhaps an exponent. -/
inductive RealText : Bytes → Bytes → Prop
  | mk (ds fs ex next) : Digits ds → All Digit fs → Exponent ex → Stops Digit next →
      (ex = [] → Stops (fun c => c = c! 'e' ∨ c = c! 'E') next) → RealText (ds ++ c! '.' :: (fs ++ ex)) next

/-! ## Tokens -/

/-- `PathWord lx w next`: by the rules for paths, the text `w` before the text `next` is the token `lx`. -/
inductive PathWord : Lexeme → Bytes → Bytes → Prop
  | punct (c next) : c ∈ b! "()[]*$:," → PathWord (.plain (.ch c)) [c] next
  | dot (next) : Stops (· = c! '.') next → PathWord (.plain (.ch (c! '.'))) (b! ".") next
  | nest (next) : PathWord (.plain .nest) (b! "..") next
  | filter (next) : PathWord (.plain .filter) (b! "?(") next
  | str (w v next) : StrLit w v → PathWord (strTok v) w next
  | int (ds next) : Digits ds → Stops Digit next → decimal ds < 2 ^ 63 → PathWord (intTok (Int64.ofNat (decimal ds))) ds next
  | neg (w ds next) : White w → Digits ds → Stops Digit next → decimal ds < 2 ^ 63 - 1 →
      PathWord (intTok (-Int64.ofNat (decimal ds))) (c! '-' :: (w ++ ds)) next
  | name (c w next) : Letter c → All LetterDigitDash w → Stops LetterDigitDash next → PathWord (nameTok (c :: w)) (c :: w) next

/-- `ExprWord pf lx w next`: by the rules for expressions, the text `w` before the text `next` is the token `lx`.
`pf` gives the values of the texts of numbers. -/
inductive ExprWord (pf : Bytes → Option F64) : Lexeme → Bytes → Bytes → Prop
  | punct (c next) : c ∈ b! "()[]@$.,~*%+-/" → ExprWord pf (.plain (.ch c)) [c] next
  | and (next) : ExprWord pf (.plain .and) (b! "&&") next
  | or (next) : ExprWord pf (.plain .or) (b! "||") next
  | le (next) : ExprWord pf (.plain .le) (b! "<=") next
  | ge (next) : ExprWord pf (.plain .ge) (b! ">=") next
  | eq (next) : ExprWord pf (.plain .eq) (b! "==") next
  | ne (next) : ExprWord pf (.plain .ne) (b! "!=") next
  | match_ (next) : ExprWord pf (.plain .match_) (b! "=~") next
  | alone (c d next) : (c = c! '&' ∧ d = b! "&") ∨ (c = c! '|' ∧ d = b! "|") ∨ (c = c! '<' ∧ d = b! "=") ∨
      (c = c! '>' ∧ d = b! "=") ∨ (c = c! '=' ∧ d = b! "=~") ∨ (c = c! '!' ∧ d = b! "=") →
      Stops (· ∈ d) next → ExprWord pf (.plain (.ch c)) [c] next
  | str (w v next) : StrLit w v → ExprWord pf (strTok v) w next
  | int (ds next) : Digits ds → Stops (fun c => Digit c ∨ c = c! '.') next → decimal ds < 2 ^ 63 →
      ExprWord pf (intTok (Int64.ofNat (decimal ds))) ds next
  | real (w f next) : RealText w next → pf w = some f → ExprWord pf (realTok f) w next
  | name (c w next) : Letter c → All LetterDigit w → Stops LetterDigit next → ExprWord pf (nameTok (c :: w)) (c :: w) next

/-- `Word pf t w next`: the text `w` before the text `next` is the token `t`. -/
inductive Word (pf : Bytes → Option F64) : Token → Bytes → Bytes → Prop
  | path (lx w next) : PathWord lx w next → Word pf (.path lx) w next
  | expr (lx w next) : ExprWord pf lx w next → Word pf (.expr lx) w next
  | regexp (t v next) : ReBody t v → Word pf (.regexp v) (t ++ b! "/") next

/-- The white space that may stand before a token: none before the text of a regular expression, where it
would be part of the expression. -/
def Gap (t : Token) (g : Bytes) : Prop :=
  match t with
  | .regexp _ => g = []
  | _ => White g

/-- The text is made of these tokens and white space. -/
inductive Written (pf : Bytes → Option F64) : List Token → Bytes → Prop
  | nil (g) : White g → Written pf [] g
  | cons (t ts g w next) : Gap t g → Word pf t w next → Written pf ts next → Written pf (t :: ts) (g ++ (w ++ next))

/-- `s` spells the integer `n` in decimal, with or without a sign. -/
inductive Spells : Bytes → Int → Prop
  | plain (ds : Bytes) : Digits ds → Spells ds (decimal ds)
  | plus (ds : Bytes) : Digits ds → Spells (43 :: ds) (decimal ds)
  | minus (ds : Bytes) : Digits ds → Spells (45 :: ds) (-(decimal ds : Int))

end JP.Spec
