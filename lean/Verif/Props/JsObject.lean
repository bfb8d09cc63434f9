import Verif.Proof.JsObject
import Verif.Proof.KRfl
import Verif.Proof.Ops
import Verif.Props.Float
import Verif.Props.Ex
/-!
Arrays and objects against simple values: C57.
-/
namespace JP
open Spec F64

variable (env : Env)

private theorem eq_true {a b : V} : Yields2 env .eq a b (.bool true) ↔ eqVal env a b = true := by
  rw [yields2_ok (s := .bool (eqVal env a b)) rfl, V.bool.injEq, eq_comm]

/-- `==`, in either order, is true exactly if `P`. -/
def EqualIff (env : Env) (a b : V) (P : Prop) : Prop :=
  (Yields2 env .eq a b (.bool true) ↔ P) ∧ (Yields2 env .eq b a (.bool true) ↔ P)

private theorem equalIff {a b : V} {P : Prop} {r : Bool} (h1 : eqVal env a b = r) (h2 : eqVal env b a = r) (h : r = true ↔ P) :
    EqualIff env a b P := by
  unfold EqualIff
  rw [eq_true, eq_true, h1, h2]
  exact ⟨h, h⟩

/-- The full statement: an array or object equals a simple value as in JavaScript. -/
def ObjectRule : Prop :=
  ∀ (a b : V) (y : Simple), Structure a → simple? b = some y → EqualIff env a b (ObjectEq a y)

/-! ### How the code compares -/

private theorem eq_null {a b : V} {y : Simple} (ha : Structure a) (hb : simple? b = some y) (hy : y = .undefined ∨ y = .null) :
    eqVal env a b = false ∧ eqVal env b a = false := by
  rcases ha with ⟨xs, rfl⟩ | ⟨kvs, rfl⟩ <;> cases b <;> simp [simple?] at hb <;> subst hb <;> simp at hy <;>
    constructor <;> rw [eqVal_mixed (by simp [typeOf])] <;> simp [eqMixed, typeOf]

private theorem eq_object {kvs : List (Bytes × V)} {b : V} {y : Simple} (hb : simple? b = some y) :
    eqVal env (.obj kvs) b = false ∧ eqVal env b (.obj kvs) = false := by
  cases b <;> simp [simple?] at hb <;>
    constructor <;> rw [eqVal_mixed (by simp [typeOf])] <;> simp [eqMixed, typeOf, eqArrayB]

private theorem eq_array_number {xs : List V} {b : V} {y : Number} (hb : simple? b = some (.number y)) :
    eqVal env (.arr xs) b = eqArrayN env xs b ∧ eqVal env b (.arr xs) = eqArrayN env xs b := by
  cases b <;> simp [simple?] at hb <;>
    constructor <;> rw [eqVal_mixed (by simp [typeOf])] <;> simp [eqMixed, typeOf]

private theorem eq_array_bool {xs : List V} {b : Bool} :
    eqVal env (.arr xs) (.bool b) = eqArrayB env (.arr xs) (.bool b) ∧
      eqVal env (.bool b) (.arr xs) = eqArrayB env (.arr xs) (.bool b) := by
  constructor <;> rw [eqVal_mixed (by simp [typeOf])] <;> simp [eqMixed, typeOf]

private theorem num_of {b : V} {y : Number} (hb : simple? b = some (.number y)) : num? b = some y := by
  cases b <;> simp [simple?] at hb <;> simp [num?, hb]

private theorem float_of {b : V} {g : F64} (hb : simple? b = some (.number (.float g))) : b = .float g := by
  cases b <;> simp [simple?] at hb
  rw [hb]

private theorem int_of {b : V} {n : Int} (hb : simple? b = some (.number (.int n))) : ∃ m : Int64, m.toInt = n ∧ (b = .int m ∨ b = .gint m) := by
  cases b <;> simp [simple?] at hb
  · exact ⟨_, hb, .inr rfl⟩
  · exact ⟨_, hb, .inl rfl⟩

private theorem bool_of {b : V} {y : Bool} (hb : simple? b = some (.bool y)) : b = .bool y := by
  cases b <;> simp [simple?] at hb
  rw [hb]

private theorem eqNum_int {x b : V} {m : Int64} (hx : isFloat x = false) (hb : b = .int m ∨ b = .gint m) :
    eqNum env x b = true ↔ cvi env x = m := by
  rw [eqNum_eq]
  rcases hb with rfl | rfl <;> rw [hx] <;> simp [isFloat, cvi]

private theorem zero_int {m : Int64} : F64.zero.feq (ofInt m.toInt) = true ↔ 0 = m := by
  rw [feq_comm, ofInt_feq_zero, ← Int64.toInt_inj, eq_comm]
  rfl

/-! ### Texts of arrays -/

theorem jsText_one {x : V} {t : Bytes} (hx : x ≠ .null) : JsText (.arr [x]) t ↔ JsText x t := by
  constructor
  · intro h
    cases h with
    | arr _ ts h =>
      cases h with
      | null => exact absurd rfl hx
      | cons _ _ t' ts' _ ht h => cases h; exact ht
  · intro h
    exact .arr _ [t] (.cons _ _ _ _ hx h .nil)

theorem jsText_null {t : Bytes} : JsText (.arr [.null]) t ↔ t = [] := by
  constructor
  · intro h
    cases h with
    | arr _ ts h =>
      cases h with
      | null _ _ h => cases h; rfl
      | cons _ _ _ _ hx => exact absurd rfl hx
  · rintro rfl
    exact .arr _ [[]] (.null _ _ .nil)

theorem jsText_nil {t : Bytes} : JsText (.arr []) t ↔ t = [] := by
  constructor
  · intro h
    cases h with
    | arr _ ts h => cases h; rfl
  · rintro rfl
    exact .arr _ [] .nil

/-- The text of an array of more than one element has a comma. -/
theorem jsText_many {x y : V} {zs : List V} {t : Bytes} (h : JsText (.arr (x :: y :: zs)) t) : c! ',' ∈ t := by
  have key : ∀ (a b : Bytes) (r : List Bytes), c! ',' ∈ joined (a :: b :: r) := by
    intro a b r
    simp [joined]
  cases h with
  | arr _ ts h =>
    cases h with
    | null _ ts h =>
      cases h with
      | null => exact key _ _ _
      | cons => exact key _ _ _
    | cons _ _ _ ts _ _ h =>
      cases h with
      | null => exact key _ _ _
      | cons => exact key _ _ _

private theorem many_number {x y : V} {zs : List V} (n : Number) : ¬ ∃ t, JsText (.arr (x :: y :: zs)) t ∧ TextEq t n := by
  rintro ⟨t, h1, h2⟩
  exact textEq_other (jsText_many h1) (by simp [NumberChar, Digit]) (by decide) n h2

private theorem obj_number {kvs : List (Bytes × V)} (n : Number) : ¬ ∃ t, JsText (.obj kvs) t ∧ TextEq t n := by
  rintro ⟨t, h1, h2⟩
  cases h1
  exact textEq_other (c := c! '[') (by decide) (by simp [NumberChar, Digit]) (by decide) n h2

private theorem int_text {m : Int64} {t : Bytes} : (JsText (.int m) t ↔ IntegerText m.toInt t) ∧ (JsText (.gint m) t ↔ IntegerText m.toInt t) := by
  refine ⟨⟨fun h => ?_, .int _ _⟩, ⟨fun h => ?_, .gint _ _⟩⟩ <;> cases h <;> assumption

/-- The text of an integer equals exactly the numbers that the integer equals. -/
private theorem textEq_int {n : Int} {t : Bytes} (h : IntegerText n t) (y : Number) : TextEq t y ↔ (ofInt n).feq y.toF64 = true := by
  obtain ⟨neg, hd⟩ := h.decimal
  exact textEq_decimal hd (rounds_ofInt n) y

private theorem one_int {x : V} {m : Int64} (hx : x = .int m ∨ x = .gint m) (y : Number) :
    (∃ t, JsText (.arr [x]) t ∧ TextEq t y) ↔ (ofInt m.toInt).feq y.toF64 = true := by
  have hn : x ≠ .null := by rcases hx with rfl | rfl <;> simp
  have ht : ∀ t, JsText x t ↔ IntegerText m.toInt t := by
    rcases hx with rfl | rfl
    · exact fun t => int_text.1
    · exact fun t => int_text.2
  simp only [jsText_one hn, ht]
  constructor
  · rintro ⟨t, h1, h2⟩
    exact (textEq_int h1 y).1 h2
  · intro h
    obtain ⟨t, ht⟩ := integerText_exists m.toInt
    exact ⟨t, ht, (textEq_int ht y).2 h⟩

private theorem one_float {f : F64} (y : Number) : (∃ t, JsText (.arr [.float f]) t ∧ TextEq t y) ↔ f.feq y.toF64 = true := by
  simp only [jsText_one (x := .float f) (by simp)]
  constructor
  · rintro ⟨t, h1, h2⟩
    cases h1 with
    | float _ _ h => exact (textEq_number h y).1 h2
  · intro h
    obtain ⟨t, ht⟩ := numberText_exists f
    exact ⟨t, .float _ _ ht, (textEq_number ht y).2 h⟩

private theorem one_str {s : Bytes} (y : Number) : (∃ t, JsText (.arr [.str s]) t ∧ TextEq t y) ↔ TextEq s y := by
  simp only [jsText_one (x := .str s) (by simp)]
  constructor
  · rintro ⟨t, h1, h2⟩
    cases h1; exact h2
  · intro h
    exact ⟨s, .str s, h⟩

private theorem one_null (y : Number) : (∃ t, JsText (.arr [.null]) t ∧ TextEq t y) ↔ F64.zero.feq y.toF64 = true := by
  simp only [jsText_null, exists_eq_left]
  exact textEq_empty y

private theorem one_obj {kvs : List (Bytes × V)} (y : Number) : ¬ ∃ t, JsText (.arr [.obj kvs]) t ∧ TextEq t y := by
  simp only [jsText_one (x := .obj kvs) (by simp)]
  exact obj_number y

/-! ### The elements that are compared as in JavaScript -/

/-- An integer that a float can hold whatever its last digits. -/
def Small (n : Int) : Prop := n.natAbs ≤ 2 ^ 53

/-- The elements that, alone in an array, are compared with a number as in JavaScript. -/
inductive AsNumber : V → Number → Prop
  | float (f y) : AsNumber (.float f) y
  | int (m : Int64) (n) : Small m.toInt → Small n → AsNumber (.int m) (.int n)
  | gint (m : Int64) (n) : Small m.toInt → Small n → AsNumber (.gint m) (.int n)
  | intFloat (m g) : AsNumber (.int m) (.float g)
  | gintFloat (m g) : AsNumber (.gint m) (.float g)
  | empty (y) : AsNumber (.str []) y
  | strInt (s m n) : Spells s m → Small m → Small n → AsNumber (.str s) (.int n)
  | strFloat (s neg q e g) : DecimalText s neg q e → Sane s e → |q| < limit → AsNumber (.str s) (.float g)
  | null (n) : AsNumber .null (.int n)
  | obj (kvs g) : AsNumber (.obj kvs) (.float g)

/-- The elements that, alone in an array, are compared with a boolean as in JavaScript. -/
inductive AsBool : V → Prop
  | float (f : F64) (n : Int64) : f.Finite → f.val = n.toInt → AsBool (.float f)
  | int (m) : AsBool (.int m)
  | gint (m) : AsBool (.gint m)
  | empty : AsBool (.str [])
  | strInt (s) (m : Int64) : Spells s m.toInt → AsBool (.str s)
  | null : AsBool .null

/-- Where the code agrees with JavaScript.  For arrays against strings see C54. -/
inductive Faithful : V → Simple → Prop
  | undefined (a) : Faithful a .undefined
  | null (a) : Faithful a .null
  | objNumber (kvs y) : Faithful (.obj kvs) (.number y)
  | objBool (kvs b) : Faithful (.obj kvs) (.bool b)
  | objString (kvs s) : s ≠ b! "[object Object]" → Faithful (.obj kvs) (.string s)
  | emptyNumber (y) : Faithful (.arr []) (.number y)
  | emptyBool (b) : Faithful (.arr []) (.bool b)
  | manyNumber (x z zs y) : Faithful (.arr (x :: z :: zs)) (.number y)
  | manyBool (x z zs b) : Faithful (.arr (x :: z :: zs)) (.bool b)
  | oneNumber (x y) : AsNumber x y → Faithful (.arr [x]) (.number y)
  | oneBool (x b) : AsBool x → Faithful (.arr [x]) (.bool b)

private theorem small_inj {m n : Int} (hm : Small m) (hn : Small n) : (ofInt m).feq (ofInt n) = true ↔ m = n := by
  have a := (C24_convert m).2 hm
  have b := (C24_convert n).2 hn
  simp only [Number.toF64] at a b
  rw [feq_iff, key_eq_iff, a.2, b.2]
  simp only [ofInt_not_nan, true_and]
  exact Int.cast_inj

private theorem small_i64 {m : Int} (hm : Small m) : ∃ j : Int64, j.toInt = m ∧ m = j.toInt := by
  unfold Small at hm
  exact ⟨Int64.ofInt m, Int64.toInt_ofInt_of_le (by omega) (by omega), (Int64.toInt_ofInt_of_le (by omega) (by omega)).symm⟩

private theorem bool_number (b : Bool) : (boolToNumber b).toF64 = if b then F64.one else F64.zero := by
  cases b
  · exact ofInt_zero
  · exact ofInt_one

private theorem int_bool (m : Int64) (b : Bool) : (ofInt m.toInt).feq (boolToNumber b).toF64 = true ↔ m = cvi env (.bool b) := by
  rw [bool_number]
  cases b
  · simp only [Bool.false_eq_true, if_false, cvi]
    rw [ofInt_feq_zero, ← Int64.toInt_inj]; rfl
  · simp only [if_true, cvi]
    rw [ofInt_feq_one, ← Int64.toInt_inj]; rfl

private theorem number_eq_comm {x y : F64} {P : Prop} (h : P ↔ x.feq y = true) : P ↔ y.feq x = true := by rw [h, feq_comm]

private theorem cvi_integral {f : F64} {n : Int64} (hf : f.Finite) (h : f.val = n.toInt) : f2i env f = n := by
  obtain ⟨h1, h2⟩ := not_special hf
  have r1 := n.le_toInt
  have r2 := n.toInt_lt
  have ht : f.trunc = n.toInt := trunc_spec ⟨hf, by rw [h]; simp⟩
  unfold f2i
  rw [h1, h2, ht, if_neg (by simp), if_pos ⟨r1, r2⟩, Int64.ofInt_toInt]

/-- There it agrees: between an array or object and a number, boolean, null or failure, and between an object
and a string. -/
theorem C57_object_partial (a b : V) (y : Simple) (ha : Structure a) (hb : simple? b = some y) (hf : Faithful a y) :
    EqualIff env a b (ObjectEq a y) := by
  cases hf with
  | undefined =>
    obtain ⟨h1, h2⟩ := eq_null env ha hb (.inl rfl)
    exact equalIff env h1 h2 (by simp [ObjectEq])
  | null =>
    obtain ⟨h1, h2⟩ := eq_null env ha hb (.inr rfl)
    exact equalIff env h1 h2 (by simp [ObjectEq])
  | objNumber kvs y =>
    obtain ⟨h1, h2⟩ := eq_object env (kvs := kvs) hb
    exact equalIff env h1 h2 (by simp only [ObjectEq, obj_number, Bool.false_eq_true])
  | objBool kvs y =>
    obtain ⟨h1, h2⟩ := eq_object env (kvs := kvs) hb
    exact equalIff env h1 h2 (by simp only [ObjectEq, obj_number, Bool.false_eq_true])
  | objString kvs s hs =>
    obtain ⟨h1, h2⟩ := eq_object env (kvs := kvs) hb
    refine equalIff env h1 h2 ?_
    simp only [ObjectEq, Bool.false_eq_true, false_iff]
    intro h
    cases h
    exact hs rfl
  | emptyNumber y =>
    obtain ⟨h1, h2⟩ := eq_array_number env (xs := []) hb
    refine equalIff env h1 h2 ?_
    simp only [ObjectEq, jsText_nil, exists_eq_left, textEq_empty, eqArrayN]
    rw [eqNum_number (num_of hb) (show num? (.float .zero) = some (.float .zero) from rfl), feq_comm]
    cases y <;> rfl
  | emptyBool b =>
    obtain rfl := bool_of hb
    obtain ⟨h1, h2⟩ := eq_array_bool env (xs := []) (b := b)
    refine equalIff env h1 h2 ?_
    simp only [ObjectEq, jsText_nil, exists_eq_left, textEq_empty, eqArrayB, bool_number]
    cases b <;> simp [cvi] <;> decide
  | manyNumber x z zs y =>
    obtain ⟨h1, h2⟩ := eq_array_number env (xs := x :: z :: zs) hb
    exact equalIff env h1 h2 (by simp only [ObjectEq, many_number, eqArrayN, Bool.false_eq_true])
  | manyBool x z zs b =>
    obtain rfl := bool_of hb
    obtain ⟨h1, h2⟩ := eq_array_bool env (xs := x :: z :: zs) (b := b)
    refine equalIff env h1 h2 ?_
    simp only [ObjectEq, many_number, eqArrayB]
    simp
  | oneNumber x y hx =>
    obtain ⟨h1, h2⟩ := eq_array_number env (xs := [x]) hb
    refine equalIff env h1 h2 ?_
    have hy := num_of hb
    simp only [ObjectEq, eqArrayN]
    cases hx with
    | float f =>
      rw [one_float, eqNum_number (show num? (.float f) = some (.float f) from rfl) hy]
      cases y <;> rfl
    | int m n hm hn =>
      rw [one_int (.inl rfl), eqNum_number (show num? (.int m) = some (.int m.toInt) from rfl) hy]
      exact (small_inj hm hn).symm
    | gint m n hm hn =>
      rw [one_int (.inr rfl), eqNum_number (show num? (.gint m) = some (.int m.toInt) from rfl) hy]
      exact (small_inj hm hn).symm
    | intFloat m g =>
      rw [one_int (.inl rfl), eqNum_number (show num? (.int m) = some (.int m.toInt) from rfl) hy]
      rfl
    | gintFloat m g =>
      rw [one_int (.inr rfl), eqNum_number (show num? (.gint m) = some (.int m.toInt) from rfl) hy]
      rfl
    | empty =>
      rw [one_str, textEq_empty]
      cases y with
      | int n =>
        obtain ⟨m, rfl, hm⟩ := int_of hb
        rw [eqNum_int env rfl hm]
        exact zero_int.symm
      | float g =>
        rw [float_of hb]
        simp [eqNum_eq, isFloat, cvf, Number.toF64]
    | strInt s m n hs hm hn =>
      obtain ⟨k, rfl, hk⟩ := int_of hb
      obtain ⟨j, rfl, hj⟩ := small_i64 hm
      have hp := parseInt_spelled.2 (hj ▸ hs)
      obtain ⟨neg, hd⟩ := parseInt_text hp
      rw [one_str, textEq_decimal hd (rounds_ofInt _), eqNum_int env rfl hk]
      simp only [cvi, hd.chars.1, hp, if_false, Option.getD_some]
      rw [← Int64.toInt_inj]
      exact (small_inj (hj ▸ hm) hn).symm
    | strFloat s neg q e g hd hs hl =>
      obtain ⟨f, p1, p2, p3, -⟩ := (parseFloat_decimal (env := env) hd hs).2 hl
      rw [one_str, textEq_decimal hd p3, float_of hb]
      simp [eqNum_eq, isFloat, cvf, p1, hd.chars.1, Number.toF64]
    | null n =>
      obtain ⟨m, rfl, hm⟩ := int_of hb
      rw [one_null, eqNum_int env rfl hm]
      exact zero_int.symm
    | obj kvs g =>
      rw [float_of hb]
      simp only [one_obj, eqNum_eq]
      simp [isFloat, cvf, feq_nan_left (show F64.nan.isNaN = true by decide)]
  | oneBool x b hx =>
    obtain rfl := bool_of hb
    obtain ⟨h1, h2⟩ := eq_array_bool env (xs := [x]) (b := b)
    refine equalIff env h1 h2 ?_
    simp only [ObjectEq, eqArrayB, List.isEmpty_cons, Bool.and_false, Bool.false_or, beq_iff_eq]
    cases hx with
    | float f n hf hv =>
      rw [one_float]
      simp only [cvi, cvi_integral env hf hv]
      have hi : f.feq (ofInt n.toInt) = true := by
        have := rounds_val hf
        rw [hv] at this
        exact rounds_feq this (rounds_ofInt _)
      rw [feq_left hi, int_bool env]
      rfl
    | int m => rw [one_int (.inl rfl), int_bool env]; rfl
    | gint m => rw [one_int (.inr rfl), int_bool env]; rfl
    | empty =>
      rw [one_str, textEq_empty, bool_number]
      cases b <;> simp [cvi] <;> decide
    | strInt s m hs =>
      have hp := parseInt_spelled.2 hs
      obtain ⟨neg, hd⟩ := parseInt_text hp
      rw [one_str, textEq_decimal hd (rounds_ofInt _), int_bool env]
      simp only [cvi, hd.chars.1, hp, if_false, Option.getD_some]
    | null =>
      rw [one_null, bool_number]
      cases b <;> simp [cvi] <;> decide

example := C57_object_partial Ex.env (.arr [.float ⟨0x4045000000000000⟩]) (.int 42) (.number (.int 42)) (.inl ⟨_, rfl⟩) rfl
  (.oneNumber _ _ (.float _ _))

/-! ### Where it does not agree -/

/-- `[true] == 1` and `[true] == true` are true, though `"true"` is no number. -/
theorem C57_true : EqualIff env (.arr [.bool true]) (.int 1) True ∧ ¬ ObjectEq (.arr [.bool true]) (.number (.int 1)) ∧
    EqualIff env (.arr [.bool true]) (.bool true) True ∧ ¬ ObjectEq (.arr [.bool true]) (.bool true) := by
  have no : ∀ y, ¬ ∃ t, JsText (.arr [.bool true]) t ∧ TextEq t y := by
    rintro y ⟨t, h1, h2⟩
    rw [jsText_one (by simp)] at h1
    cases h1
    exact textEq_other (c := c! 'r') (by decide) (by simp [NumberChar, Digit]) (by decide) y h2
  refine ⟨?_, no _, ?_, no _⟩
  · obtain ⟨h1, h2⟩ := eq_array_number env (xs := [.bool true]) (b := .int 1) rfl
    exact equalIff env h1 h2 (by rw [eqArrayN, eqNum_int env rfl (.inl rfl)]; simp [cvi])
  · obtain ⟨h1, h2⟩ := eq_array_bool env (xs := [.bool true]) (b := true)
    exact equalIff env h1 h2 (by simp [eqArrayB, cvi])

/-- So the full statement is false. -/
theorem C57_object_fails : ¬ ObjectRule env := by
  intro h
  have h1 := (h (.arr [.bool true]) (.int 1) _ (.inl ⟨_, rfl⟩) rfl).1
  have h2 := C57_true env
  exact h2.2.1 (h1.1 (h2.1.1.2 trivial))

/-- An object does not equal its text `"[object Object]"`. -/
theorem C57_object_text (kvs : List (Bytes × V)) : EqualIff env (.obj kvs) (.str (b! "[object Object]")) False ∧
    ObjectEq (.obj kvs) (.string (b! "[object Object]")) := by
  obtain ⟨h1, h2⟩ := eq_object env (kvs := kvs) (b := .str (b! "[object Object]")) rfl
  exact ⟨equalIff env h1 h2 (by simp), .obj kvs⟩

/-- An array in an array counts as the integer 0, whatever it contains: `[[1]] == 0`, and `[[1]] == 1` is false. -/
theorem C57_nested (xs : List V) (n : Int64) : EqualIff env (.arr [.arr xs]) (.int n) (n = 0) := by
  obtain ⟨h1, h2⟩ := eq_array_number env (xs := [.arr xs]) (b := .int n) rfl
  exact equalIff env h1 h2 (by rw [eqArrayN, eqNum_int env rfl (.inl rfl)]; simp [cvi, eq_comm])

theorem C57_nested_js : ObjectEq (.arr [.arr [.int 1]]) (.number (.int 1)) ∧ ¬ ObjectEq (.arr [.arr [.int 1]]) (.number (.int 0)) := by
  have h : ∀ y, ObjectEq (.arr [.arr [.int 1]]) (.number y) ↔ (ofInt 1).feq y.toF64 = true := by
    intro y
    have := one_int (x := .int 1) (m := 1) (.inl rfl) y
    simp only [ObjectEq, jsText_one (x := .arr [.int 1]) (by simp)]
    exact this
  rw [h, h]
  exact ⟨feq_self.2 (ofInt_not_nan 1), by
    rw [show (Number.int 0).toF64 = F64.zero from ofInt_zero, ofInt_feq_zero]; decide⟩

/-- An object in an array counts as 0 against integers and booleans: `[{}] == 0`. -/
theorem C57_object_in_array (kvs : List (Bytes × V)) (n : Int64) : EqualIff env (.arr [.obj kvs]) (.int n) (n = 0) ∧
    ¬ ObjectEq (.arr [.obj kvs]) (.number (.int n.toInt)) := by
  obtain ⟨h1, h2⟩ := eq_array_number env (xs := [.obj kvs]) (b := .int n) rfl
  exact ⟨equalIff env h1 h2 (by rw [eqArrayN, eqNum_int env rfl (.inl rfl)]; simp [cvi, eq_comm]), one_obj _⟩

/-- `[null] == 0.0` is false, though `[null] == 0` is true. -/
theorem C57_null_float (g : F64) : EqualIff env (.arr [.null]) (.float g) False ∧
    (ObjectEq (.arr [.null]) (.number (.float g)) ↔ F64.zero.feq g = true) := by
  obtain ⟨h1, h2⟩ := eq_array_number env (xs := [.null]) (b := .float g) rfl
  refine ⟨equalIff env h1 h2 ?_, one_null _⟩
  rw [eqArrayN, eqNum_eq]
  simp [isFloat, cvf, feq_nan_left (show F64.nan.isNaN = true by decide)]

/-- A number in an array loses its fraction against a boolean: `[0.5] == false`. -/
theorem C57_fraction : EqualIff env (.arr [.float ⟨0x3FE0000000000000⟩]) (.bool false) True ∧
    ¬ ObjectEq (.arr [.float ⟨0x3FE0000000000000⟩]) (.bool false) := by
  obtain ⟨h1, h2⟩ := eq_array_bool env (xs := [.float ⟨0x3FE0000000000000⟩]) (b := false)
  refine ⟨equalIff env h1 h2 ?_, ?_⟩
  · have : f2i env ⟨0x3FE0000000000000⟩ = 0 := by
      unfold f2i
      rw [if_neg (by decide), if_pos (by decide)]
      decide
    simp [eqArrayB, cvi, this]
  · simp only [ObjectEq, one_float]
    decide +kernel

example : Structure (.arr [.float ⟨0x4045000000000000⟩]) ∧ simple? (.int 42) = some (.number (.int 42)) ∧
    Faithful (.arr [.float ⟨0x4045000000000000⟩]) (.number (.int 42)) := ⟨.inl ⟨_, rfl⟩, rfl, .oneNumber _ _ (.float _ _)⟩
example : AsNumber (.str (b! "-7")) (.int (-7)) :=
  .strInt _ (-7) _ (by exact .minus (b! "7") ⟨by simp, by simp [All, Digit]⟩) (by simp [Small]) (by simp [Small])

end JP
