import Verif.Spec.JsText
import Verif.Spec.Real
/-!
JavaScript's abstract equality between an array or object and a simple value: ECMA-262 5.1, 11.9.3 (6) to (10).
The array or object is converted to its text, and the text to a number unless it is compared with a string.
-/
namespace JP.Spec

/-- JavaScript's ToNumber of a text, if it is a number: 9.3.1.  White space around the number and hexadecimal
numbers, which no array of numbers has in its text, are left out. -/
inductive ToNumber : Bytes → F64 → Prop
  | empty : ToNumber [] .zero
  | infinity : ToNumber (b! "Infinity") (.inf false)
  | negInfinity : ToNumber (b! "-Infinity") (.inf true)
  | decimal (t neg q e x) : DecimalText t neg q e → F64.Rounds q x → ToNumber t x

/-- A text equals a number if it denotes the same number. -/
def TextEq (t : Bytes) (y : Number) : Prop := ∃ x, ToNumber t x ∧ x.feq y.toF64 = true

/-- Does the array or object equal the simple value? -/
def ObjectEq (a : V) : Simple → Prop
  | .undefined | .null => False
  | .bool b => ∃ t, JsText a t ∧ TextEq t (boolToNumber b)
  | .number y => ∃ t, JsText a t ∧ TextEq t y
  | .string s => JsText a s

/-- An array or object. -/
def Structure (a : V) : Prop := (∃ xs, a = .arr xs) ∨ ∃ kvs, a = .obj kvs

end JP.Spec
