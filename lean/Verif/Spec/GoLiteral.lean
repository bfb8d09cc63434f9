import Verif.Spec.Lexical
/-!
String literals of Go (The Go Programming Language Specification, "String literals") and the strings they
denote.
-/
namespace JP.Spec

/-- A character that may stand in the text of a Go program: any but NUL and the byte order mark, which a
compiler may disallow. -/
def SourceChar (r : Nat) : Prop := r.isValidChar ∧ r ≠ 0 ∧ r ≠ 0xFEFF

/-- The escapes of a single letter, with the bytes they stand for. -/
def goEscapes : List (UInt8 × UInt8) :=
  [(c! 'a', 7), (c! 'b', 8), (c! 'f', 12), (c! 'n', 10), (c! 'r', 13), (c! 't', 9), (c! 'v', 11), (c! '\\', 92), (c! '"', 34)]

/-- An octal digit and its value. -/
inductive Octal : UInt8 → Nat → Prop
  | digit (n : Nat) : n < 8 → Octal (UInt8.ofNat (48 + n)) n

/-- Hexadecimal digits and the number they spell. -/
inductive HexNumber : Bytes → Nat → Prop
  | nil : HexNumber [] 0
  | snoc (t n c i) : HexNumber t n → Hex c i → HexNumber (t ++ [c]) (16 * n + i)

/-- One character or escape inside an interpreted literal, and the bytes it denotes. -/
inductive GoUnit : Bytes → Bytes → Prop
  | char (r) : SourceChar r → r ≠ 10 → r ≠ 34 → r ≠ 92 → GoUnit (utf8 r) (utf8 r)
  | letter (e c) : (e, c) ∈ goEscapes → GoUnit [c! '\\', e] [c]
  | octal (a b c i j k) : Octal a i → Octal b j → Octal c k → 64 * i + 8 * j + k < 256 →
      GoUnit [c! '\\', a, b, c] [UInt8.ofNat (64 * i + 8 * j + k)]
  | byte (t n) : HexNumber t n → t.length = 2 → GoUnit (c! '\\' :: c! 'x' :: t) [UInt8.ofNat n]
  | short (t n) : HexNumber t n → t.length = 4 → n.isValidChar → GoUnit (c! '\\' :: c! 'u' :: t) (utf8 n)
  | long (t n) : HexNumber t n → t.length = 8 → n.isValidChar → GoUnit (c! '\\' :: c! 'U' :: t) (utf8 n)

/-- The inside of an interpreted literal. -/
inductive GoBody : Bytes → Bytes → Prop
  | nil : GoBody [] []
  | cons (a v t w) : GoUnit a v → GoBody t w → GoBody (a ++ t) (v ++ w)

/-- A string literal and the string it denotes. In a raw literal carriage returns do not count. -/
inductive GoLiteral : Bytes → Bytes → Prop
  | raw (rs : List Nat) : (∀ r ∈ rs, SourceChar r ∧ r ≠ 96) →
      GoLiteral (c! '`' :: (rs.flatMap utf8 ++ [c! '`'])) ((rs.filter (· ≠ 13)).flatMap utf8)
  | interpreted (t v) : GoBody t v → GoLiteral (c! '"' :: (t ++ [c! '"'])) v

end JP.Spec
