import Verif.Proof.Eq
/-! The code's equality against JavaScript's, on simple values. -/
namespace JP
open JP.Spec

variable {env : Env}

/-- A text that denotes a number but not a 64-bit integer, such as `42.5`. -/
def Spec.Fractional (env : Env) (s : Bytes) : Prop := s ≠ [] ∧ parseInt s = none ∧ (env.parseFloat s).isSome

/-- Is it an integer? -/
def Spec.Number.isInt : Number → Bool
  | .int _ => true
  | .float _ => false

/-- An integer is compared with the text of a number that is not an integer. -/
def Spec.IntAgainstFraction (env : Env) : Simple → Simple → Prop
  | .number x, .string s | .string s, .number x => x.isInt = true ∧ Fractional env s
  | _, _ => False

theorem numberEq_symm {x y : Number} : x.Eq y ↔ y.Eq x := by
  cases x <;> cases y <;> simp only [Number.Eq]
  · exact eq_comm
  · rw [F64.feq_comm]
  · rw [F64.feq_comm]
  · rw [F64.feq_comm]

theorem jsEq_symm {x y : Simple} : JsEq env x y ↔ JsEq env y x := by
  cases x <;> cases y <;> simp only [JsEq] <;> first | exact numberEq_symm | exact eq_comm

theorem i64_eq {m n : Int64} : m = n ↔ m.toInt = n.toInt := by
  constructor
  · rintro rfl; rfl
  · exact Int64.toInt_inj.1

/-- A number that the code has, as a number. -/
def num? : V → Option Number
  | .gint n | .int n => some (.int n.toInt)
  | .float f => some (.float f)
  | _ => none

theorem eqNum_number {a b : V} {x y : Number} (ha : num? a = some x) (hb : num? b = some y) : eqNum env a b = true ↔ x.Eq y := by
  rw [eqNum_eq]
  cases a <;> simp only [num?, reduceCtorEq, Option.some.injEq] at ha <;> subst ha <;>
    cases b <;> simp only [num?, reduceCtorEq, Option.some.injEq] at hb <;> subst hb <;>
    simp [isFloat, Number.Eq, cvi, cvf, Number.toF64, i64_eq]

theorem bool_cvf (b : Bool) : cvf env (.bool b) = .ofInt (if b then 1 else 0) := by
  cases b
  · simp [cvf, F64.ofInt_zero]
  · simp [cvf, F64.ofInt_one]

/-- A number against a string. -/
theorem eq_number_string (hI : ReadsIntegers env) {a : V} {x : Number} {s : Bytes} (ha : num? a = some x)
    (hf : ¬ (x.isInt = true ∧ Fractional env s)) :
    (if badNum env s (isFloat a) then false else eqNum env a (.str s)) = true ↔ x.Eq (stringToNumber env s) := by
  rw [eqNum_eq]
  unfold stringToNumber badNum
  by_cases hs : s = []
  · subst hs
    cases a <;> simp only [num?, reduceCtorEq, Option.some.injEq] at ha <;> subst ha <;>
      simp [isFloat, Number.Eq, cvi, cvf, Number.toF64, i64_eq, F64.ofInt_zero]
  · cases hp : parseInt s with
    | some n =>
      obtain ⟨g, hg, hgn⟩ := hI s n hp
      cases a <;> simp only [num?, reduceCtorEq, Option.some.injEq] at ha <;> subst ha
      · simp [isFloat, Number.Eq, cvi, i64_eq, hs, hp]
      · simp [isFloat, Number.Eq, cvi, i64_eq, hs, hp]
      · rename_i f
        simp only [isFloat, Number.Eq, cvf, hs, hg, Number.toF64, Option.isNone_some, Option.getD_some, if_false, Bool.not_true,
          Bool.false_and, Bool.true_or, if_true, Bool.false_eq_true]
        rw [F64.feq_comm f g, F64.feq_left hgn, F64.feq_comm]
    | none =>
      cases hpf : env.parseFloat s with
      | some g =>
        cases a <;> simp only [num?, reduceCtorEq, Option.some.injEq] at ha <;> subst ha
        · exact absurd ⟨rfl, hs, hp, by rw [hpf]; rfl⟩ hf
        · exact absurd ⟨rfl, hs, hp, by rw [hpf]; rfl⟩ hf
        · simp [isFloat, Number.Eq, cvf, hs, hpf, Number.toF64]
      | none =>
        cases a <;> simp only [num?, reduceCtorEq, Option.some.injEq] at ha <;> subst ha <;>
          simp [Number.Eq, hs, Number.toF64, F64.feq_nan_right F64.nan_nan]

/-- A boolean against a string. -/
theorem eq_bool_string (hI : ReadsIntegers env) {b : Bool} {s : Bytes} :
    (if badNum env s true then false else (cvf env (.bool b)).feq (cvf env (.str s))) = true ↔
      (boolToNumber b).Eq (stringToNumber env s) := by
  rw [bool_cvf]
  unfold stringToNumber badNum boolToNumber
  by_cases hs : s = []
  · subst hs
    cases b
    · simp [Number.Eq, cvf, F64.ofInt_zero]; decide
    · simp [Number.Eq, cvf, F64.ofInt_one]; decide
  · cases hp : parseInt s with
    | some n =>
      obtain ⟨g, hg, hgn⟩ := hI s n hp
      simp only [cvf, hs, hg, Number.Eq, Option.isNone_some, Option.getD_some, if_false, Bool.not_true,
          Bool.false_and, Bool.false_eq_true]
      rw [F64.feq_comm _ g, F64.feq_left hgn]
      cases b
      · simp only [Bool.false_eq_true, if_false, F64.ofInt_zero, F64.ofInt_feq_zero]
        exact eq_comm
      · simp only [if_true, F64.ofInt_one, F64.ofInt_feq_one]
        exact eq_comm
    | none =>
      cases hpf : env.parseFloat s with
      | some g => simp [Number.Eq, cvf, hs, hpf, Number.toF64]
      | none => simp [Number.Eq, hs, Number.toF64, F64.feq_nan_right F64.nan_nan]

/-- A boolean against a number. -/
theorem eq_bool_number {b : Bool} {a : V} {x : Number} (ha : num? a = some x) :
    eqNum env (.bool b) a = true ↔ (boolToNumber b).Eq x := by
  rw [eqNum_eq]
  unfold boolToNumber
  cases a <;> simp only [num?, reduceCtorEq, Option.some.injEq] at ha <;> subst ha
  · cases b <;> simp [isFloat, Number.Eq, cvi, i64_eq]
  · cases b <;> simp [isFloat, Number.Eq, cvi, i64_eq]
  · rw [bool_cvf]; simp [isFloat, Number.Eq, cvf, Number.toF64]

theorem t_err {e : Err} : typeOf (.err e) = .undefined := rfl
theorem t_null : typeOf .null = .null := rfl
theorem t_bool {b : Bool} : typeOf (.bool b) = .boolean := rfl
theorem t_str {s : Bytes} : typeOf (.str s) = .string := rfl

/-- What a simple value is. -/
inductive Is : V → Simple → Prop
  | undefined (e : Err) : Is (.err e) .undefined
  | null : Is .null .null
  | bool (b : Bool) : Is (.bool b) (.bool b)
  | string (s : Bytes) : Is (.str s) (.string s)
  | number (v : V) (x : Number) : num? v = some x → typeOf v = .number → Is v (.number x)

theorem simple_is {v : V} {x : Simple} (h : simple? v = some x) : Is v x := by
  cases v <;> simp only [simple?, reduceCtorEq, Option.some.injEq] at h <;> subst h
  · exact .null
  · exact .bool _
  · exact .number _ _ rfl rfl
  · exact .number _ _ rfl rfl
  · exact .number _ _ rfl rfl
  · exact .string _
  · exact .undefined _

theorem eqVal_mixed {a b : V} (h : typeOf a ≠ typeOf b) : eqVal env a b = eqMixed env a b := by
  rw [eqVal.eq_def, if_pos (by simpa using h)]

theorem eqVal_numbers {a b : V} (ha : typeOf a = .number) (hb : typeOf b = .number) : eqVal env a b = eqNum env a b := by
  rw [eqVal.eq_def, ha, hb]
  cases a <;> simp only [typeOf, reduceCtorEq] at ha <;> rfl

/-- On simple values the code computes JavaScript's equality, except for an integer against the text of a
number that is not an integer. -/
theorem eqVal_simple (hI : ReadsIntegers env) {a b : V} {x y : Simple} (ha : simple? a = some x) (hb : simple? b = some y)
    (hf : ¬ IntAgainstFraction env x y) : eqVal env a b = true ↔ JsEq env x y := by
  replace ha := simple_is ha
  replace hb := simple_is hb
  cases ha with
  | undefined e =>
    cases hb with
    | number _ y hb ht => rw [eqVal_mixed (by rw [ht]; simp [t_err, t_null, t_bool, t_str])]; simp [eqMixed, ht, t_err, t_null, t_bool, t_str, JsEq]
    | _ => simp [eqVal, eqMixed, typeOf, JsEq]
  | null =>
    cases hb with
    | number _ y hb ht => rw [eqVal_mixed (by rw [ht]; simp [t_err, t_null, t_bool, t_str])]; simp [eqMixed, ht, t_err, t_null, t_bool, t_str, JsEq]
    | _ => simp [eqVal, eqMixed, typeOf, JsEq]
  | bool p =>
    cases hb with
    | number _ y hb ht =>
      rw [eqVal_mixed (by rw [ht]; simp [t_err, t_null, t_bool, t_str])]
      simp only [eqMixed, ht, t_err, t_null, t_bool, t_str, JsEq]
      exact eq_bool_number hb
    | string s =>
      rw [eqVal_mixed (by simp [typeOf])]
      simp only [eqMixed, typeOf, JsEq, cvs]
      exact eq_bool_string hI
    | _ => simp [eqVal, eqMixed, typeOf, JsEq]
  | string s =>
    cases hb with
    | number _ y hb ht =>
      rw [eqVal_mixed (by rw [ht]; simp [t_err, t_null, t_bool, t_str])]
      simp only [eqMixed, ht, t_err, t_null, t_bool, t_str, JsEq, cvs]
      rw [numberEq_symm, eqNum_comm]
      exact eq_number_string hI hb hf
    | bool p =>
      rw [eqVal_mixed (by simp [typeOf])]
      simp only [eqMixed, typeOf, JsEq, cvs]
      rw [numberEq_symm, F64.feq_comm]
      exact eq_bool_string hI
    | _ => simp [eqVal, eqMixed, typeOf, JsEq]
  | number _ x ha ht =>
    cases hb with
    | number _ y hb ht2 => rw [eqVal_numbers ht ht2]; exact eqNum_number ha hb
    | string s =>
      rw [eqVal_mixed (by rw [ht]; simp [t_err, t_null, t_bool, t_str])]
      simp only [eqMixed, ht, t_err, t_null, t_bool, t_str, JsEq, cvs]
      exact eq_number_string hI ha hf
    | bool p =>
      rw [eqVal_mixed (by rw [ht]; simp [t_err, t_null, t_bool, t_str])]
      simp only [eqMixed, ht, t_err, t_null, t_bool, t_str, JsEq]
      rw [numberEq_symm, eqNum_comm]
      exact eq_bool_number ha
    | undefined e => rw [eqVal_mixed (by rw [ht]; simp [t_err, t_null, t_bool, t_str])]; simp [eqMixed, ht, t_err, t_null, t_bool, t_str, JsEq]
    | null => rw [eqVal_mixed (by rw [ht]; simp [t_err, t_null, t_bool, t_str])]; simp [eqMixed, ht, t_err, t_null, t_bool, t_str, JsEq]

end JP
