import Verif.Spec.JsText
/-!
Names computed by expressions: the texts of values as Go prints them, and the values for which these are the
texts that JavaScript would use.
-/
namespace JP.Spec

/-- The exponent of a number, with two digits or more. -/
def twoDigits (ds : Bytes) : Bytes := if ds.length < 2 then c! '0' :: ds else ds

/-- Go's text of a positive number of which the shortest decimal has the digits `ds` and the point after `n` of
them: with an exponent if there would be more than 6 digits before the point or more than 3 zeros after it. -/
inductive GoMag (ds : Bytes) (n : ℤ) : Bytes → Prop
  | whole (zs) : ds.length ≤ n → n ≤ 6 → Zeros (n - ds.length).toNat zs → GoMag ds n (ds ++ zs)
  | point (a b) : ds = a ++ b → 0 < n → n ≤ 6 → a.length = n → b ≠ [] → GoMag ds n (a ++ c! '.' :: b)
  | fraction (zs) : -4 < n → n ≤ 0 → Zeros (-n).toNat zs → GoMag ds n (c! '0' :: c! '.' :: (zs ++ ds))
  | exponent (w es) : n ≤ -4 ∨ 6 < n → Mantissa ds w → Numeral (n - 1).natAbs es →
      GoMag ds n (w ++ c! 'e' :: expSign (n - 1) :: twoDigits es)

/-- Go's text of a number. -/
inductive GoNumber : F64 → Bytes → Prop
  | nan (x : F64) : x.isNaN = true → GoNumber x (b! "NaN")
  | zero (x : F64) : x.mag = 0 → x.neg? = false → GoNumber x [c! '0']
  | negZero (x : F64) : x.mag = 0 → x.neg? = true → GoNumber x (b! "-0")
  | infinite (x : F64) : x.isInf = true → x.neg? = false → GoNumber x (b! "+Inf")
  | negInfinite (x : F64) : x.isInf = true → x.neg? = true → GoNumber x (b! "-Inf")
  | positive (x : F64) (m e ds w) : x.Finite → x.mag ≠ 0 → x.neg? = false → Shortest x m e → Numeral m ds →
      GoMag ds (ds.length + e) w → GoNumber x w
  | negative (x : F64) (m e ds w) : x.Finite → x.mag ≠ 0 → x.neg? = true → Shortest x m e → Numeral m ds →
      GoMag ds (ds.length + e) w → GoNumber x (c! '-' :: w)

/-- Texts with blanks between them. -/
def blanks : List Bytes → Bytes
  | [] => []
  | [t] => t
  | t :: ts => t ++ c! ' ' :: blanks ts

/-- The members of an object in the order of their names, each with a text: `name:text`. -/
def memberTexts : List (Bytes × V) → List Bytes → List Bytes
  | (k, _) :: kvs, t :: ts => (k ++ c! ':' :: t) :: memberTexts kvs ts
  | _, _ => []

mutual
/-- Go's text of a value that a document can contain. -/
inductive GoText : V → Bytes → Prop
  | null : GoText .null (b! "<nil>")
  | true : GoText (.bool true) (b! "true")
  | false : GoText (.bool false) (b! "false")
  | gint (n t) : IntegerText n.toInt t → GoText (.gint n) t
  | int (n t) : IntegerText n.toInt t → GoText (.int n) t
  | float (x t) : GoNumber x t → GoText (.float x) t
  | str (s) : GoText (.str s) s
  | num (s) : GoText (.num s) s
  | arr (xs ts) : GoTexts xs ts → GoText (.arr xs) (b! "[" ++ blanks ts ++ b! "]")
  | obj (kvs sorted ts) : sorted.Perm kvs → sorted.Pairwise (fun a b => a.1 < b.1) → GoTexts (sorted.map Prod.snd) ts →
      GoText (.obj kvs) (b! "map[" ++ blanks (memberTexts sorted ts) ++ b! "]")
/-- The texts of values. -/
inductive GoTexts : List V → List Bytes → Prop
  | nil : GoTexts [] []
  | cons (x xs t ts) : GoText x t → GoTexts xs ts → GoTexts (x :: xs) (t :: ts)
end

/-- Values of which JavaScript's text is used as the name: strings, booleans, integers, and floating-point
numbers that are integers of at most 53 bits. -/
inductive NamesAsJs : V → Prop
  | str (s) : NamesAsJs (.str s)
  | bool (b) : NamesAsJs (.bool b)
  | gint (n) : NamesAsJs (.gint n)
  | int (n) : NamesAsJs (.int n)
  | whole (x : F64) (n : ℤ) : x.Finite → x.val = n → |n| ≤ 2 ^ 53 → NamesAsJs (.float x)

/-- Values of which it is not: null, arrays, objects, infinities, NaN and numbers with a fraction. -/
inductive NamesOtherwise : V → Prop
  | null : NamesOtherwise .null
  | arr (xs) : NamesOtherwise (.arr xs)
  | obj (kvs) : NamesOtherwise (.obj kvs)
  | special (x : F64) : ¬ x.Finite → NamesOtherwise (.float x)
  | fraction (x : F64) : x.Finite → (∀ n : ℤ, x.val ≠ n) → NamesOtherwise (.float x)

end JP.Spec
