import Verif.Spec.Lexical
/-!
What literals denote, independently of how the scanners read them.
-/
namespace JP.Spec

/-- The words, in order, with white space before, between and after them. -/
inductive Spaced : List Bytes → Bytes → Prop
  | nil (g) : White g → Spaced [] g
  | cons (w ws g next) : White g → Spaced ws next → Spaced (w :: ws) (g ++ (w ++ next))

/-! ## Integers -/

/-- An integer with a sign, as in a path, and its value: `signed-integer ::= "-"? integer`. -/
inductive SignedInt : Bytes → Int → Prop
  | pos (ds) : Digits ds → SignedInt ds (decimal ds)
  | neg (ds) : Digits ds → SignedInt (c! '-' :: ds) (-(decimal ds))

/-! ## Strings -/

/-- The text begins with two escapes that are a pair of surrogates. -/
def PairAt (q : UInt8) (t : Bytes) : Prop :=
  ∃ e u f w t', Escape q e u ∧ Escape q f w ∧ SurrogatePair u w ∧ t = e ++ (f ++ t')

/-- What the inside of a literal in the quotes `q` denotes: bytes stand for themselves, escapes for the
characters they name, a pair of surrogates for the one character it encodes, and a surrogate that is not in
a pair for U+FFFD. If `strict`, no surrogate outside a pair stands right before a pair. -/
inductive Denotes (strict : Bool) (q : UInt8) : Bytes → Bytes → Prop
  | nil : Denotes strict q [] []
  | plain (c t v) : c ≠ q → c ≠ c! '\\' → 0x20 ≤ c → Denotes strict q t v → Denotes strict q (c :: t) (c :: v)
  | pair (e u f w t v) : Escape q e u → Escape q f w → SurrogatePair u w → Denotes strict q t v →
      Denotes strict q (e ++ (f ++ t)) (utf8 (ofPair u w) ++ v)
  | escape (e u t v) : Escape q e u → ¬ PairAt q (e ++ t) → (strict = true → Surrogate u → ¬ PairAt q t) →
      Denotes strict q t v → Denotes strict q (e ++ t) (utf8 u ++ v)

/-- The hexadecimal digit for a number. -/
def hexDigit (n : Nat) : UInt8 := if n < 10 then UInt8.ofNat (48 + n) else UInt8.ofNat (87 + n)

/-- One way to write a byte inside a literal in the quotes `q`. -/
def writeByte (q c : UInt8) : Bytes :=
  if c = q ∨ c = c! '\\' then [c! '\\', c]
  else if c < 0x20 then b! "\\u00" ++ [hexDigit (c.toNat / 16), hexDigit (c.toNat % 16)]
  else [c]

/-- A literal for any sequence of bytes. -/
def writeStr (q : UInt8) (v : Bytes) : Bytes := q :: (v.flatMap (writeByte q) ++ [q])

/-! ## Regular expressions -/

/-- The expression between the slashes, in which `\/` stands for a slash. -/
def unslash : Bytes → Bytes
  | [] => []
  | [c] => [c]
  | c :: d :: t => if c = c! '\\' ∧ d = c! '/' then c! '/' :: unslash t else c :: unslash (d :: t)

/-- Every slash has a backslash before it, and the last byte is not a backslash. -/
def Closed : Bytes → Prop
  | [] => True
  | [c] => c ≠ c! '/' ∧ c ≠ c! '\\'
  | c :: d :: t => c ≠ c! '/' ∧ (if c = c! '\\' ∧ d = c! '/' then Closed t else Closed (d :: t))

end JP.Spec
