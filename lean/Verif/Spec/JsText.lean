import Verif.Spec.Shortest
import Verif.Spec.Js
/-!
JavaScript's texts of values: ToString (ECMA-262 5.1, 9.8), with Array.prototype.toString for arrays.
-/
namespace JP.Spec

/-- The digits of a number, without zeros in front. -/
def Numeral (n : Nat) (ds : Bytes) : Prop := Digits ds ∧ decimal ds = n ∧ (ds.head? = some (c! '0') → ds = [c! '0'])

/-- The text of an integer. -/
inductive IntegerText : Int → Bytes → Prop
  | nonneg (n : Nat) (ds) : Numeral n ds → IntegerText n ds
  | neg (n : Nat) (ds) : 0 < n → Numeral n ds → IntegerText (-n) (c! '-' :: ds)

/-- Some zeros. -/
def Zeros (n : Nat) (w : Bytes) : Prop := w.length = n ∧ ∀ c ∈ w, c = c! '0'

/-- One digit, and the rest after a point if there are more. -/
inductive Mantissa : Bytes → Bytes → Prop
  | one (d) : Mantissa [d] [d]
  | more (d c r) : Mantissa (d :: c :: r) (d :: c! '.' :: c :: r)

/-- The sign of an exponent. -/
def expSign (e : ℤ) : UInt8 := if e < 0 then c! '-' else c! '+'

/-- The text of a positive number of which the shortest decimal has the digits `ds` and the point after `n`
of them: 9.8.1, rules 6 to 10. -/
inductive MagText (ds : Bytes) (n : ℤ) : Bytes → Prop
  | whole (zs) : ds.length ≤ n → n ≤ 21 → Zeros (n - ds.length).toNat zs → MagText ds n (ds ++ zs)
  | point (a b) : ds = a ++ b → 0 < n → n ≤ 21 → a.length = n → b ≠ [] → MagText ds n (a ++ c! '.' :: b)
  | fraction (zs) : -6 < n → n ≤ 0 → Zeros (-n).toNat zs → MagText ds n (c! '0' :: c! '.' :: (zs ++ ds))
  | exponent (w es) : n ≤ -6 ∨ 21 < n → Mantissa ds w → Numeral (n - 1).natAbs es →
      MagText ds n (w ++ c! 'e' :: expSign (n - 1) :: es)

/-- The text of a number: 9.8.1. -/
inductive NumberText : F64 → Bytes → Prop
  | nan (x : F64) : x.isNaN = true → NumberText x (b! "NaN")
  | zero (x : F64) : x.mag = 0 → NumberText x [c! '0']
  | infinite (x : F64) : x.isInf = true → x.neg? = false → NumberText x (b! "Infinity")
  | negInfinite (x : F64) : x.isInf = true → x.neg? = true → NumberText x (b! "-Infinity")
  | positive (x : F64) (m e ds w) : x.Finite → x.mag ≠ 0 → x.neg? = false → Shortest x m e → Numeral m ds →
      MagText ds (ds.length + e) w → NumberText x w
  | negative (x : F64) (m e ds w) : x.Finite → x.mag ≠ 0 → x.neg? = true → Shortest x m e → Numeral m ds →
      MagText ds (ds.length + e) w → NumberText x (c! '-' :: w)

/-- Texts with commas between them. -/
def joined : List Bytes → Bytes
  | [] => []
  | [t] => t
  | t :: ts => t ++ c! ',' :: joined ts

mutual
/-- The text of a value that a document can contain. -/
inductive JsText : V → Bytes → Prop
  | null : JsText .null (b! "null")
  | true : JsText (.bool true) (b! "true")
  | false : JsText (.bool false) (b! "false")
  | gint (n t) : IntegerText n.toInt t → JsText (.gint n) t
  | int (n t) : IntegerText n.toInt t → JsText (.int n) t
  | float (x t) : NumberText x t → JsText (.float x) t
  | str (s) : JsText (.str s) s
  | obj (kvs) : JsText (.obj kvs) (b! "[object Object]")
  | arr (xs ts) : JsElems xs ts → JsText (.arr xs) (joined ts)
/-- The texts of the elements of an array; null has none. -/
inductive JsElems : List V → List Bytes → Prop
  | nil : JsElems [] []
  | null (xs ts) : JsElems xs ts → JsElems (.null :: xs) ([] :: ts)
  | cons (x xs t ts) : x ≠ .null → JsText x t → JsElems xs ts → JsElems (x :: xs) (t :: ts)
end

end JP.Spec
