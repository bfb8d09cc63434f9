import Verif.Spec.Js
import Verif.Spec.Lexical
/-!
JavaScript's relational operators on simple values (ECMA-262 5.1, 11.8.5), written down independently of the code.
-/
namespace JP.Spec

/-- A string with the characters `rs`, in UTF-8. -/
def text (rs : List Nat) : Bytes := rs.flatMap utf8

/-- All are Unicode characters. -/
def Chars (rs : List Nat) : Prop := ∀ r ∈ rs, r.isValidChar

/-- A character in UTF-16: one unit, or two for those beyond U+FFFF. -/
def utf16 (r : Nat) : List Nat :=
  if r < 0x10000 then [r] else [0xD800 + (r - 0x10000) / 0x400, 0xDC00 + (r - 0x10000) % 0x400]

/-- The order of strings in JavaScript: by units of UTF-16. -/
def Before (s t : Bytes) : Prop := ∃ rs ts, s = text rs ∧ t = text ts ∧ Chars rs ∧ Chars ts ∧ rs.flatMap utf16 < ts.flatMap utf16

/-- JavaScript's ToNumber. -/
def toNumber (env : Env) : Simple → Number
  | .undefined => .float .nan
  | .null => .int 0
  | .bool b => boolToNumber b
  | .number n => n
  | .string s => stringToNumber env s

/-- Less, as in JavaScript: 11.8.5. -/
def JsLess (env : Env) : Simple → Simple → Prop
  | .string s, .string t => Before s t
  | x, y => (toNumber env x).Lt (toNumber env y)

/-- Neither is NaN when compared as numbers. -/
def JsOrdered (env : Env) : Simple → Simple → Prop
  | .string _, .string _ => True
  | x, y => (toNumber env x).Ordered ∧ (toNumber env y).Ordered

/-- The four operators: 11.8.1 to 11.8.4. -/
def JsRel (env : Env) : Op → Simple → Simple → Prop
  | .lt, x, y => JsLess env x y
  | .gt, x, y => JsLess env y x
  | .le, x, y => JsOrdered env x y ∧ ¬ JsLess env y x
  | .ge, x, y => JsOrdered env x y ∧ ¬ JsLess env x y
  | _, _, _ => False

/-- A string, if it is one, is made of characters. -/
def Readable : Simple → Prop
  | .string s => ∃ rs, Chars rs ∧ s = text rs
  | _ => True

/-- Strings that differ first in a character from U+E000 to U+FFFF in one and one beyond U+FFFF in the other. -/
inductive Clash : List Nat → List Nat → Prop
  | left (a b u v) : 0xE000 ≤ a → a < 0x10000 → 0x10000 ≤ b → Clash (a :: u) (b :: v)
  | right (a b u v) : 0xE000 ≤ b → b < 0x10000 → 0x10000 ≤ a → Clash (a :: u) (b :: v)
  | there (c u v) : Clash u v → Clash (c :: u) (c :: v)

/-- Values that can be compared: one is a failure, both are numbers or booleans, or both are strings that do not clash. -/
inductive JsComparable : Simple → Simple → Prop
  | left (y) : JsComparable .undefined y
  | right (x) : JsComparable x .undefined
  | numbers (m n) : JsComparable (.number m) (.number n)
  | bools (a b) : JsComparable (.bool a) (.bool b)
  | boolNumber (a n) : JsComparable (.bool a) (.number n)
  | numberBool (m b) : JsComparable (.number m) (.bool b)
  | strings (rs ts) : Chars rs → Chars ts → ¬ Clash rs ts → JsComparable (.string (text rs)) (.string (text ts))

end JP.Spec
