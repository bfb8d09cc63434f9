import Verif.Proof.JsEq
import Verif.Proof.Decimal
import Verif.Proof.KRfl
import Verif.Props.Observe
/-!
The operators of expressions: C20-C25.

`Yields2 env op a b r` says that `e1 op e2` has the value `r` whenever `e1` and `e2` have the values `a` and
`b`; `operators_observed` and C14 say how such values show in the results of `Eval`.
-/
namespace JP
open Spec

variable (env : Env)

/-! ### C20 == is an equality -/

private theorem eq_yields {a b r : V} : Yields2 env .eq a b r ↔ r = .bool (eqVal env a b) := yields2_ok rfl

private theorem eq_true {a b : V} : Yields2 env .eq a b (.bool true) ↔ eqVal env a b = true := by
  rw [eq_yields]
  constructor
  · intro h; injection h with h; exact h.symm
  · intro h; rw [h]

/-- `==` always yields a boolean. -/
theorem C20_total (a b : V) : ∃ r, Yields2 env .eq a b (.bool r) := ⟨_, (eq_yields env).2 rfl⟩

/-- Full statement, first part: symmetry. -/
def SymmetryRule : Prop :=
  ∀ a b : V, a.WF → b.WF → Yields2 env .eq a b (.bool true) → Yields2 env .eq b a (.bool true)

/-- It is false: `{"x": null} == {"y": 1}` is true, `{"y": 1} == {"x": null}` is false. -/
theorem C20_symmetry_fails : ¬ SymmetryRule env := by
  intro h
  have h1 := h (.obj [(b! "x", .null)]) (.obj [(b! "y", .int 1)]) (by simp [V.WF, WFm]) (by simp [V.WF, WFm])
    ((eq_true env).2 (by rw [eqVal_obj]; simp [lookup, eqVal, typeOf]))
  rw [eq_true, eqVal_obj] at h1
  simp [lookup, eqVal, typeOf, eqMixed] at h1

/-- Symmetry holds for an object without null members on the left. -/
theorem C20_symmetry_partial (a b : V) (ha : KeysDistinct a) (hb : KeysDistinct b) (hn : NoNullMembers a)
    (h : Yields2 env .eq a b (.bool true)) : Yields2 env .eq b a (.bool true) := by
  rw [eq_true] at h ⊢
  exact eqVal_symm hn ha hb h

example := C20_symmetry_partial Ex.env (.arr [.int 1]) (.str (b! "1"))
  (.arr _ fun x hx => .other x (by simp at hx; simp [hx]) (by simp at hx; simp [hx])) (.other _ (by simp) (by simp))
  (.arr _ fun x hx => .other x (by simp at hx; simp [hx]) (by simp at hx; simp [hx])) ((eq_true _).2 (by krfl))

/-- Between values of different types, or neither of which is an array or object, symmetry holds without
condition. -/
theorem C20_symmetry_simple (a b r : V) (ha : (simple? a).isSome ∨ (simple? b).isSome) :
    Yields2 env .eq a b r ↔ Yields2 env .eq b a r := by
  rw [eq_yields, eq_yields]
  have hs : ∀ v : V, (simple? v).isSome → (∀ xs, v ≠ .arr xs) ∧ ∀ kvs, v ≠ .obj kvs := by
    intro v hv; cases v <;> simp [simple?] at hv ⊢
  have key : ∀ x y : V, (simple? x).isSome → eqVal env x y = eqVal env y x := by
    intro x y hx
    by_cases ht : typeOf x = typeOf y
    · rw [Bool.eq_iff_iff]
      refine ⟨eqVal_symm_other (hs x hx), fun h => ?_⟩
      refine eqVal_symm_other (a := y) (b := x) ?_ h
      cases x <;> cases y <;> simp [simple?, typeOf] at hx ht ⊢
    · rw [eqVal_mixed ht, eqVal_mixed (Ne.symm ht), eqMixed_comm _ _ ht]
  rcases ha with ha | hb
  · rw [key a b ha]
  · rw [key b a hb]

example : KeysDistinct Ex.doc := by
  unfold Ex.doc
  refine .obj _ (by decide) ?_
  intro kv hkv
  simp at hkv
  rcases hkv with rfl | rfl
  · refine .arr _ ?_
    intro x hx
    refine .other x ?_ ?_ <;> · simp at hx; rcases hx with rfl | rfl | rfl <;> simp
  · exact .obj _ (by simp) (by simpa using KeysDistinct.other _ (by simp) (by simp))

/-- Every document value without NaN (and without `json.Number`) equals itself. -/
theorem C20_reflexive (a : V) (ha : Ordinary a) (hd : KeysDistinct a) : Yields2 env .eq a a (.bool true) :=
  (eq_true env).2 (eqVal_refl ha hd)

example := C20_reflexive Ex.env (.arr [.int 1, .null])
  (.arr _ fun x hx => by simp at hx; rcases hx with rfl | rfl; exacts [.int 1, .null])
  (.arr _ fun x hx => .other x (by simp at hx; rcases hx with rfl | rfl <;> simp) (by simp at hx; rcases hx with rfl | rfl <;> simp))

/-- NaN and `json.Number` values never equal themselves. -/
theorem C20_not_reflexive (a : V) (ha : (∃ f : F64, a = .float f ∧ f.isNaN = true) ∨ IsJsonNumber a) :
    Yields2 env .eq a a (.bool false) := by
  rw [eq_yields]
  rcases ha with ⟨f, rfl, hf⟩ | ⟨s, rfl⟩
  · simp [eqVal, typeOf, eqNum_eq, isFloat, cvf, F64.feq_nan_left hf]
  · simp [eqVal, typeOf]

example : Ordinary (.arr [.int 1, .str (b! "x"), .null]) := by
  refine .arr _ ?_
  intro x hx
  simp at hx
  rcases hx with rfl | rfl | rfl
  · exact .int 1
  · exact .str _
  · exact .null

/-- Full statement, last part: JavaScript's equality between simple values. -/
def JsRule : Prop :=
  ∀ (a b : V) (x y : Simple), simple? a = some x → simple? b = some y → (Yields2 env .eq a b (.bool true) ↔ JsEq env x y)

/-- It is false: `0 == "42.5"` is true. -/
theorem C20_js_fails : ¬ JsRule env := by
  obtain ⟨f, h, hf⟩ : ∃ f, env.parseFloat (b! "42.5") = some f ∧ f.feq .zero = false := ⟨⟨0x4045400000000000⟩, by krfl, by decide +kernel⟩
  intro hr
  have h1 := (hr (.int 0) (.str (b! "42.5")) _ _ rfl rfl).1 ((eq_true env).2 (by
    rw [eqVal_mixed (by decide)]
    simp only [eqMixed, typeOf, cvs]
    have hp : parseInt (b! "42.5") = none := by decide
    rw [eqNum_eq]
    simp [badNum, h, cvi, hp, isFloat]))
  have h2 : stringToNumber env (b! "42.5") = .float f := by
    have hp : parseInt (b! "42.5") = none := by decide
    simp [stringToNumber, hp, h]
  simp only [JsEq, h2, Number.Eq, Number.toF64, Int64.toInt_zero, F64.ofInt_zero] at h1
  rw [F64.feq_comm, hf] at h1
  cases h1

/-- JavaScript's equality holds except between an integer and the text of a number that is not a 64-bit
integer. -/
theorem C20_js_partial (a b : V) (x y : Simple) (ha : simple? a = some x) (hb : simple? b = some y)
    (hf : ¬ IntAgainstFraction env x y) : Yields2 env .eq a b (.bool true) ↔ JsEq env x y := by
  rw [eq_true]
  exact eqVal_simple readsIntegers ha hb hf

example : ¬ IntAgainstFraction Ex.env (.number (.int 1)) (.string (b! "1")) := by
  have h : parseInt (b! "1") = some 1 := by decide
  simp [IntAgainstFraction, Fractional, h]
example : JsEq Ex.env (.number (.int 1)) (.string (b! "1")) := by
  have h : parseInt (b! "1") = some 1 := by decide
  simp [JsEq, stringToNumber, h, Number.Eq]

/-- Arrays of one element are not compared with numbers as in JavaScript: `["abc"] == 0` is true. -/
theorem C20_array_number (s : Bytes) (hs : s ≠ []) (hp : parseInt s = none) :
    Yields2 env .eq (.arr [.str s]) (.int 0) (.bool true) := by
  rw [eq_true, eqVal_mixed (by simp [typeOf])]
  simp [eqMixed, typeOf, eqArrayN, eqNum_eq, isFloat, cvi, hs, hp]

example : parseInt (b! "abc") = none := by decide

/-! ### C21 != negates ==, nin negates in -/

/-- `!=` yields the negation of what `==` yields. -/
theorem C21_ne (a b : V) (r : Bool) : Yields2 env .ne a b (.bool r) ↔ Yields2 env .eq a b (.bool !r) := by
  rw [eq_yields, yields2_ok (op := .ne) rfl]
  cases r <;> cases eqVal env a b <;> simp

private theorem search_iff (xs : List V) (v : V) (f : Bool) :
    searchJSON env xs v f = if xs.any (fun el => eqVal env el v) then f else !f := by
  induction xs with
  | nil => rfl
  | cons x xs ih =>
    unfold searchJSON
    rw [ih, List.any_cons]
    cases eqVal env x v <;> rfl

/-- `nin` yields the negation of what `in` yields. -/
theorem C21_nin (a b : V) (r : Bool) : Yields2 env .nin a b (.bool r) ↔ Yields2 env .in_ a b (.bool !r) := by
  rw [yields2_iff (op := .nin) rfl, yields2_iff (op := .in_) rfl]
  unfold opIn
  split
  · simp [V.nothing]
  · split
    · rw [search_iff, search_iff]
      cases r <;> (split <;> simp)
    · simp

/-- `x in L` holds exactly when some element of `L` is `==` to `x`, and fails otherwise. -/
theorem C21_in (x : V) (xs : List V) (hx : ¬ Failed x) :
    (Yields2 env .in_ x (.arr xs) (.bool true) ↔ ∃ el ∈ xs, Yields2 env .eq el x (.bool true)) ∧
    (Yields2 env .in_ x (.arr xs) (.bool false) ↔ ∀ el ∈ xs, Yields2 env .eq el x (.bool false)) := by
  have hn : isNothing x = false := by cases x <;> simp [Failed, isNothing] at hx ⊢
  have ha : isNothing (.arr xs) = false := rfl
  rw [yields2_iff (op := .in_) rfl, yields2_iff (op := .in_) rfl]
  unfold opIn
  simp only [hn, ha, Bool.or_self, Bool.false_eq_true, if_false, Res.ok.injEq, V.bool.injEq, search_iff]
  constructor
  · constructor
    · intro h
      have : xs.any (fun el => eqVal env el x) = true := by
        cases hany : xs.any fun el => eqVal env el x
        · rw [hany] at h; simp at h
        · rfl
      obtain ⟨el, hel, he⟩ := List.any_eq_true.1 this
      exact ⟨el, hel, (eq_true env).2 he⟩
    · rintro ⟨el, hel, he⟩
      rw [if_pos (List.any_eq_true (p := fun el => eqVal env el x).2 ⟨el, hel, (eq_true env).1 he⟩)]
      rfl
  · constructor
    · intro h el hel
      rw [eq_yields]
      cases he : eqVal env el x
      · rfl
      · rw [if_pos (List.any_eq_true (p := fun el => eqVal env el x).2 ⟨el, hel, he⟩)] at h; simp at h
    · intro h
      rw [if_neg]
      · rfl
      · intro hany
        obtain ⟨el, hel, he⟩ := List.any_eq_true.1 hany
        have := (eq_yields env).1 (h el hel)
        rw [he] at this; cases this

example : ¬ Failed (.str (b! "x")) := by simp [Failed]

/-! ### C22 Truthiness and the values of && and || -/

/-- What a filter counts as true: everything that is not falsy. -/
theorem C22_truthy (v : V) (hj : ¬ IsJsonNumber v) : truthy env v = false ↔ Falsy v := by
  constructor
  · intro h
    cases v with
    | null => exact .null
    | err e => exact .failed e
    | bool b => cases b with
      | false => exact .false
      | true => simp [truthy, isNothing, cvb] at h
    | gint n => simp [truthy, isNothing, cvb] at h; subst h; exact .gint
    | int n => simp [truthy, isNothing, cvb] at h; subst h; exact .int
    | str s => simp [truthy, isNothing, cvb] at h; subst h; exact .empty
    | float f =>
      simp only [truthy, isNothing, cvb, Bool.not_false, Bool.true_and] at h
      cases hn : f.isNaN with
      | true => exact .nan f hn
      | false =>
        have h0 : f.feq F64.zero.fneg = f.feq .zero := by
          rw [F64.feq_comm, F64.feq_left (y := .zero) (by decide), F64.feq_comm]
        rw [hn, h0] at h
        have : f.feq .zero = true := by
          cases hz : f.feq .zero
          · rw [hz] at h; simp at h
          · rfl
        rcases F64.feq_zero.1 this with rfl | rfl
        · exact .zero
        · exact .negZero
    | num s => exact absurd ⟨s, rfl⟩ hj
    | arr | obj | name | re | slice => simp [truthy, isNothing, cvb] at h
  · intro h
    cases h with
    | null | failed | false | gint | int | empty => simp [truthy, isNothing, cvb]
    | nan f h => simp [truthy, isNothing, cvb, h]
    | zero => simp only [truthy, isNothing, cvb]; decide
    | negZero => simp only [truthy, isNothing, cvb]; decide

example := C22_truthy Ex.env (.str (b! "false")) (by rintro ⟨_, h⟩; cases h)

private theorem truthy_of {v : V} (hj : ¬ IsJsonNumber v) (h : ¬ Falsy v) : isNothing v = false ∧ cvb env v = true := by
  have : truthy env v = true := by
    cases ht : truthy env v
    · exact absurd ((C22_truthy env v hj).1 ht) h
    · rfl
  simpa [truthy] using this

private theorem falsy_of {v : V} (h : Falsy v) : isNothing v = true ∨ (isNothing v = false ∧ cvb env v = false) := by
  have : truthy env v = false := (C22_truthy env v (by rintro ⟨s, rfl⟩; cases h)).2 h
  unfold truthy at this
  cases hn : isNothing v
  · rw [hn] at this; exact .inr ⟨rfl, by simpa using this⟩
  · exact .inl rfl

/-- A filter comparing the elements of pairs selects exactly the pairs on which the operator yields something
that is not falsy. -/
theorem C22_filter (oracle : Oracle) (op : Op) (txt : Bytes) (h : (op, txt) ∈ infixOps) :
    ∃ p, Compile env (b! "$[?(@[0] " ++ txt ++ b! " @[1])]") = .ok p ∧ ∀ a b r : V, Yields2 env op a b r → ¬ IsJsonNumber r →
      (Falsy r → Eval env oracle p (.arr [.arr [a, b]]) = some (.ok (some []))) ∧
      (¬ Falsy r → Eval env oracle p (.arr [.arr [a, b]]) = some (.ok (some [.arr [a, b]]))) := by
  obtain ⟨p, hp, ho⟩ := operators_observed env oracle op txt h
  refine ⟨p, hp, fun a b r hr hj => ?_⟩
  have := (ho a b).1 r hr
  constructor
  · intro hf
    rw [this, (C22_truthy env r hj).2 hf]; rfl
  · intro hf
    have ht : truthy env r = true := by
      cases ht : truthy env r
      · exact absurd ((C22_truthy env r hj).1 ht) hf
      · rfl
    rw [this, ht]; rfl

example := C22_filter Ex.env Oracle.id .add (b! "+") (by decide)

/-- `!` yields true on the falsy values and false on all others. -/
theorem C22_not (v : V) (hj : ¬ IsJsonNumber v) :
    (Yields1 env .not v (.bool true) ↔ Falsy v) ∧ (Yields1 env .not v (.bool false) ↔ ¬ Falsy v) := by
  have hv : Yields1 env .not v (.bool (!truthy env v)) := by
    rw [yields1_iff rfl]
    unfold truthy
    cases v <;> simp [isNothing, cvb]
  have hr : ∀ b, Yields1 env .not v (.bool b) ↔ b = !truthy env v := by
    intro b
    rw [yields1_iff rfl] at hv ⊢
    rw [← hv]; simp
  rw [hr, hr, ← C22_truthy env v hj]
  cases truthy env v <;> simp

example := C22_not Ex.env (.int 0) (by rintro ⟨_, h⟩; cases h)

/-- `a || b` yields `a` unless `a` is falsy. -/
theorem C22_or_left (a b : V) (hj : ¬ IsJsonNumber a) (h : ¬ Falsy a) : Yields2 env .or a b a := by
  obtain ⟨h1, h2⟩ := truthy_of env hj h
  rw [yields2_ok rfl]
  unfold opOr
  simp [h1, h2]

example := C22_or_left Ex.env (.arr []) .null (by rintro ⟨_, h⟩; cases h) (fun h => by cases h)

/-- `a || b` yields `b` when `a` is falsy (one failure is as good as another). -/
theorem C22_or_right (a b : V) (h : Falsy a) :
    ∃ r, Yields2 env .or a b r ∧ (r = b ∨ (Failed r ∧ Failed b)) := by
  refine ⟨opOr env a b, (yields2_ok rfl).2 rfl, ?_⟩
  unfold opOr
  cases hb : isNothing b with
  | true =>
    right
    have hF : Failed b := by cases b <;> simp [isNothing, Failed] at hb ⊢
    refine ⟨?_, hF⟩
    rcases falsy_of env h with ha | ⟨ha, hc⟩
    · simp [V.nothing, Failed, ha]
    · simp [ha, hc]; exact hF
  | false =>
    left
    rcases falsy_of env h with ha | ⟨ha, hc⟩
    · simp [ha]
    · simp [ha, hc]

example := C22_or_right Ex.env (.int 0) (.str (b! "x")) .int

/-- `a && b` yields `a` when `a` is falsy. -/
theorem C22_and_left (a b : V) (h : Falsy a) : Yields2 env .and a b a := by
  rw [yields2_ok rfl]
  unfold opAnd
  rcases falsy_of env h with ha | ⟨ha, hc⟩
  · simp [ha]
  · simp [ha, hc]

example := C22_and_left Ex.env (.float (.fneg .zero)) (.int 1) .negZero

/-- `a && b` yields `b` otherwise. -/
theorem C22_and_right (a b : V) (hj : ¬ IsJsonNumber a) (h : ¬ Falsy a) : Yields2 env .and a b b := by
  obtain ⟨h1, h2⟩ := truthy_of env hj h
  rw [yields2_ok rfl]
  unfold opAnd
  simp [h1, h2]

example : ¬ Falsy (.str (b! "false")) ∧ ¬ IsJsonNumber (.str (b! "false")) :=
  ⟨(by intro h; cases h), (by rintro ⟨_, h⟩; cases h)⟩
example : ¬ Falsy (.arr []) := fun h => by cases h
example : Falsy (.float (.fneg .zero)) := .negZero

/-! ### C23 Failure propagates and is contained -/

/-- The operators that fail when an operand fails. -/
def strictOps : List Op :=
  [.dot, .index, .add, .sub, .mul, .div, .mod, .lt, .le, .gt, .ge, .match_, .in_, .nin]

/-- A failed operand makes the result a failure: not an error, not a panic. -/
theorem C23_propagates (op : Op) (hop : op ∈ strictOps) (a b : V) (h : Failed a ∨ Failed b) : Yields2 env op a b .nothing := by
  have ha : (isNothing a || isNothing b) = true := by
    rcases h with h | h
    · cases a <;> simp [Failed, isNothing] at h ⊢
    · cases b <;> simp [Failed, isNothing] at h ⊢
  have hb : (isNothing b || isNothing a) = true := by rw [Bool.or_comm]; exact ha
  simp only [strictOps, List.mem_cons, List.not_mem_nil, or_false] at hop
  rcases hop with rfl | rfl | rfl | rfl | rfl | rfl | rfl | rfl | rfl | rfl | rfl | rfl | rfl | rfl
  · rw [yields2_iff rfl]; unfold opDot; rw [if_pos hb]
  · rw [yields2_ok rfl]; unfold opIndex; rw [if_pos ha]
  · rw [yields2_ok rfl]; unfold arith; rw [if_pos ha]
  · rw [yields2_ok rfl]; unfold arith; rw [if_pos ha]
  · rw [yields2_ok rfl]; unfold arith; rw [if_pos ha]
  · rw [yields2_ok rfl]; unfold divide; rw [if_pos ha]
  · rw [yields2_ok rfl]; unfold divide; rw [if_pos ha]
  · rw [yields2_ok rfl]; unfold relation; rw [if_pos ha]
  · rw [yields2_ok rfl]; unfold relation; rw [if_pos ha]
  · rw [yields2_ok rfl]; unfold relation; rw [if_pos ha]
  · rw [yields2_ok rfl]; unfold relation; rw [if_pos ha]
  · rw [yields2_iff rfl]; unfold opMatch; rw [if_pos ha]
  · rw [yields2_iff rfl]; unfold opIn; rw [if_pos ha]
  · rw [yields2_iff rfl]; unfold opIn; rw [if_pos ha]

example := C23_propagates Ex.env .add (by decide) .nothing (.int 1) (.inl trivial)

/-- The same for unary minus. -/
theorem C23_neg (a : V) (h : Failed a) : Yields1 env .neg a .nothing := by
  rw [yields1_iff rfl]
  cases a <;> simp [Failed] at h
  rfl

example := C23_neg Ex.env .nothing trivial

/-- A failure is not truthy, so a filter whose expression fails does not select (with C14). -/
theorem C23_not_selected (v : V) (h : Failed v) : truthy env v = false := by
  cases v <;> simp [Failed] at h
  rfl

example := C23_not_selected Ex.env .nothing trivial

/-- A step `[(e)]` or `.(e)` whose expression fails selects nothing; nothing else happens. -/
theorem C23_step (oracle : Oracle) (p1 p2 : JSONPath) (q : Path) (op : Op) (hop : op = .member ∨ op = .select) (e : Expr)
    (h1 : IsCompiled env p1 q) (h2 : IsCompiled env p2 (q ++ [⟨op, [.expr e]⟩])) (root : V)
    (vs : List V) (he : Eval env oracle p1 root = some (.ok (some vs)))
    (hf : ∀ t, ∃ x t', evalExpr env oracle root .null e t = .ok (.err x, t')) :
    Eval env oracle p2 root = some (.ok (some [])) := by
  obtain ⟨out, t, rfl, h⟩ := eval_snoc h1 h2 he
  obtain ⟨x, t', hx⟩ := hf t
  rw [h]
  rcases hop with rfl | rfl <;>
    simp only [stepResult, evalStep, evalVals, evalVal, hx, Res.bind_ok, isNothing, if_true] <;> rfl

example : Yields2 Ex.env .add .nothing (.int 1) .nothing := C23_propagates _ _ (by decide) _ _ (.inl trivial)

/-! ### C24 Arithmetic -/

/-- The result of an arithmetic operator that has no exceptional case. -/
def arithSpec (intf : Int → Int → Int) (floatf : F64 → F64 → F64) (a b : V) : V :=
  match arithmetic? a, arithmetic? b with
  | some x, some y => compute intf floatf x y
  | _, _ => .nothing

/-- The result of an arithmetic operator that fails when the right operand is zero. -/
def divSpec (intf : Int → Int → Int) (floatf : F64 → F64 → F64) (a b : V) : V :=
  match arithmetic? a, arithmetic? b with
  | some x, some y => if y.isZero then .nothing else compute intf floatf x y
  | _, _ => .nothing

private theorem ofInt_toInt_add (m n : Int64) : Int64.ofInt (m.toInt + n.toInt) = m + n := by
  rw [Int64.ofInt_add, Int64.ofInt_toInt, Int64.ofInt_toInt]
private theorem ofInt_toInt_sub (m n : Int64) : Int64.ofInt (m.toInt - n.toInt) = m - n := by
  rw [Int64.ofInt_sub, Int64.ofInt_toInt, Int64.ofInt_toInt]
private theorem ofInt_toInt_mul (m n : Int64) : Int64.ofInt (m.toInt * n.toInt) = m * n := by
  rw [Int64.ofInt_mul, Int64.ofInt_toInt, Int64.ofInt_toInt]
private theorem ofInt_toInt_div (m n : Int64) : Int64.ofInt (m.toInt.tdiv n.toInt) = m / n := by
  rw [← Int64.toInt_inj, Int64.toInt_div, Int64.toInt_ofInt]
private theorem ofInt_toInt_mod (m n : Int64) : Int64.ofInt (m.toInt.tmod n.toInt) = m % n := by
  rw [← Int64.toInt_inj, Int64.toInt_mod, Int64.toInt_ofInt, ← Int64.toInt_mod]
  have h1 := i64_range (m % n)
  generalize (m % n).toInt = z at *
  rw [Int.bmod_def, show ((Int64.size : Nat) : Int) = 2 ^ 64 from rfl]
  omega

/-- What `cvi` and `cvf` make of the numbers. -/
private inductive ArithIs : V → Number → Int64 → Prop
  | bool (b : Bool) : ArithIs (.bool b) (boolToNumber b) (if b then 1 else 0)
  | gint (n : Int64) : ArithIs (.gint n) (.int n.toInt) n
  | int (n : Int64) : ArithIs (.int n) (.int n.toInt) n

private theorem arith_cases (a : V) :
    (arithmetic? a = none ∧ isArith a = false ∧ isFloat a = false) ∨
    (∃ n : Int64, arithmetic? a = some (.int n.toInt) ∧ cvi env a = n ∧ isArith a = true ∧ isFloat a = false ∧ isNothing a = false ∧
      cvf env a = .ofInt n.toInt) ∨
    (∃ f : F64, arithmetic? a = some (.float f) ∧ a = .float f) := by
  cases a with
  | bool b =>
    refine .inr (.inl ⟨if b then 1 else 0, ?_, rfl, rfl, rfl, rfl, ?_⟩)
    · cases b <;> rfl
    · rw [bool_cvf]; cases b <;> rfl
  | gint n => exact .inr (.inl ⟨n, rfl, rfl, rfl, rfl, rfl, rfl⟩)
  | int n => exact .inr (.inl ⟨n, rfl, rfl, rfl, rfl, rfl, rfl⟩)
  | float f => exact .inr (.inr ⟨f, rfl, rfl⟩)
  | _ => exact .inl ⟨rfl, rfl, rfl⟩

private theorem arith_spec (intf : Int → Int → Int) (intg : Int64 → Int64 → Int64) (floatf : F64 → F64 → F64)
    (h : ∀ m n : Int64, Int64.ofInt (intf m.toInt n.toInt) = intg m n) (a b : V) :
    arith env a b intg floatf = arithSpec intf floatf a b := by
  have hfa : ∀ f : F64, isNothing (.float f) = false ∧ isArith (.float f) = true ∧ isFloat (.float f) = true ∧ cvf env (.float f) = f :=
    fun f => ⟨rfl, rfl, rfl, rfl⟩
  unfold arith arithSpec
  rcases arith_cases env a with ⟨h1, h2, h3⟩ | ⟨m, h1, h2, h3, h4, h5, h6⟩ | ⟨f, h1, rfl⟩
  · simp [h1, h2]
  all_goals
    rcases arith_cases env b with ⟨k1, k2, k3⟩ | ⟨n, k1, k2, k3, k4, k5, k6⟩ | ⟨g, k1, rfl⟩
  · simp [h1, k1, k2]
  · simp [h1, k1, h2, k2, h3, k3, h4, k4, h5, k5, compute, wrap, h]
  · simp [h1, k1, h3, h4, h5, h6, hfa, compute, Number.toF64]
  · simp [h1, k1, k2]
  · simp [h1, k1, k3, k4, k5, k6, hfa, compute, Number.toF64]
  · simp [h1, k1, hfa, compute, Number.toF64]

private theorem div_spec (intf : Int → Int → Int) (intg : Int64 → Int64 → Int64) (floatf : F64 → F64 → F64)
    (h : ∀ m n : Int64, Int64.ofInt (intf m.toInt n.toInt) = intg m n) (a b : V) :
    divide env a b intg floatf = divSpec intf floatf a b := by
  have hfa : ∀ f : F64, isNothing (.float f) = false ∧ isArith (.float f) = true ∧ isFloat (.float f) = true ∧ cvf env (.float f) = f :=
    fun f => ⟨rfl, rfl, rfl, rfl⟩
  unfold divide divSpec
  rcases arith_cases env a with ⟨h1, h2, h3⟩ | ⟨m, h1, h2, h3, h4, h5, h6⟩ | ⟨f, h1, rfl⟩
  · simp [h1, h2]
  all_goals
    rcases arith_cases env b with ⟨k1, k2, k3⟩ | ⟨n, k1, k2, k3, k4, k5, k6⟩ | ⟨g, k1, rfl⟩
  · simp [h1, k1, k2]
  · simp only [h1, k1, h2, k2, h3, k3, h4, k4, h5, k5, compute, wrap, h, Number.isZero, Bool.or_self, Bool.and_self, Bool.not_true,
      Bool.false_eq_true, if_false, beq_iff_eq]
    have : n = 0 ↔ n.toInt = 0 := by rw [i64_eq]; rfl
    simp only [this]
  · simp [h1, k1, h3, h4, h5, h6, hfa, compute, Number.toF64, Number.isZero]
    rfl
  · simp [h1, k1, k2]
  · have hz : (F64.ofInt n.toInt).feq .zero = (n.toInt == 0) := by
      rw [Bool.eq_iff_iff, F64.ofInt_feq_zero, beq_iff_eq]
    simp [h1, k1, k3, k4, k5, k6, hfa, compute, Number.toF64, Number.isZero, hz]
  · simp [h1, k1, hfa, compute, Number.toF64, Number.isZero]
    rfl

/-- `+`, `-` and `*`. -/
theorem C24_add (a b r : V) : Yields2 env .add a b r ↔ r = arithSpec (· + ·) F64.fadd a b := by
  rw [yields2_ok rfl, arith_spec env _ _ _ ofInt_toInt_add]
@[inherit_doc C24_add] theorem C24_sub (a b r : V) : Yields2 env .sub a b r ↔ r = arithSpec (· - ·) F64.fsub a b := by
  rw [yields2_ok rfl, arith_spec env _ _ _ ofInt_toInt_sub]
@[inherit_doc C24_add] theorem C24_mul (a b r : V) : Yields2 env .mul a b r ↔ r = arithSpec (· * ·) F64.fmul a b := by
  rw [yields2_ok rfl, arith_spec env _ _ _ ofInt_toInt_mul]

/-- `/` and `%`: truncating toward zero, failing on a zero divisor; the one overflow wraps. -/
theorem C24_div (a b r : V) : Yields2 env .div a b r ↔ r = divSpec Int.tdiv F64.fdiv a b := by
  rw [yields2_ok rfl, div_spec env _ _ _ ofInt_toInt_div]
@[inherit_doc C24_div] theorem C24_mod (a b r : V) : Yields2 env .mod a b r ↔ r = divSpec Int.tmod F64.fmod a b := by
  rw [yields2_ok rfl, div_spec env _ _ _ ofInt_toInt_mod]

/-- Integer results within 64 bits are exact. -/
theorem C24_exact (n : Int) (h1 : -2 ^ 63 ≤ n) (h2 : n < 2 ^ 63) : ∃ m : Int64, wrap n = .int m ∧ m.toInt = n := by
  refine ⟨Int64.ofInt n, rfl, ?_⟩
  rw [Int64.toInt_ofInt, Int.bmod_def, show ((Int64.size : Nat) : Int) = 2 ^ 64 from rfl]
  omega

example : divSpec Int.tdiv F64.fdiv (.int (-7)) (.int 2) = .int (-3) := rfl
example : divSpec Int.tmod F64.fmod (.int (-7)) (.bool false) = .nothing := rfl

/-! ### C25 Relational operators -/

/-- The comparisons of two values give coherent answers. -/
structure Coherent (env : Env) (a b : V) (lt eq gt : Bool) : Prop where
  yields_lt : Yields2 env .lt a b (.bool lt)
  yields_eq : Yields2 env .eq a b (.bool eq)
  yields_gt : Yields2 env .gt a b (.bool gt)
  yields_le : Yields2 env .le a b (.bool (lt || eq))
  yields_ge : Yields2 env .ge a b (.bool (gt || eq))
  one : (lt = true ∧ eq = false ∧ gt = false) ∨ (lt = false ∧ eq = true ∧ gt = false) ∨ (lt = false ∧ eq = false ∧ gt = true)

private theorem eqVal_arith {a b : V} (ha : (arithmetic? a).isSome) (hb : (arithmetic? b).isSome) : eqVal env a b = eqNum env a b := by
  cases a <;> simp [arithmetic?] at ha <;> cases b <;> simp [arithmetic?] at hb <;>
    simp [eqVal, eqMixed, typeOf, eqNum_eq, isFloat, cvi]
  rename_i x y
  cases x <;> cases y <;> decide

private theorem key_trichotomy {x y : F64} (hx : x.isNaN = false) (hy : y.isNaN = false) :
    (x.flt y = true ∧ x.feq y = false ∧ y.flt x = false) ∨ (x.flt y = false ∧ x.feq y = true ∧ y.flt x = false) ∨
      (x.flt y = false ∧ x.feq y = false ∧ y.flt x = true) := by
  simp only [F64.flt, F64.feq, hx, hy, Bool.not_false, Bool.true_and, decide_eq_true_eq, decide_eq_false_iff_not, beq_iff_eq,
    beq_eq_false_iff_ne, ne_eq]
  omega

private theorem key_le {x y : F64} (hx : x.isNaN = false) (hy : y.isNaN = false) : x.fle y = (x.flt y || x.feq y) := by
  rw [Bool.eq_iff_iff]
  simp only [F64.flt, F64.feq, F64.fle, hx, hy, Bool.not_false, Bool.true_and, decide_eq_true_eq, Bool.or_eq_true, beq_iff_eq]
  omega

private theorem simple_of_arith {a : V} (h : (arithmetic? a).isSome) : isNothing a = false ∧ isSimple a = true ∧ isString a = false := by
  cases a <;> simp [arithmetic?] at h <;> exact ⟨rfl, rfl, rfl⟩

/-- The comparisons of two values that are numbers or booleans, computed. -/
private theorem relation_arith {a b : V} (ha : (arithmetic? a).isSome) (hb : (arithmetic? b).isSome) (i : Int64 → Int64 → Bool)
    (f : F64 → F64 → Bool) (s : Bytes → Bytes → Bool) :
    relation env a b i f s = .bool (if isFloat a || isFloat b then f (cvf env a) (cvf env b) else i (cvi env a) (cvi env b)) := by
  obtain ⟨h1, h2, h3⟩ := simple_of_arith ha
  obtain ⟨k1, k2, k3⟩ := simple_of_arith hb
  unfold relation
  simp only [h1, h2, h3, k1, k2, k3, Bool.or_self, Bool.and_self, Bool.not_true, Bool.false_eq_true, if_false]
  split <;> rfl

private theorem cvf_ordered {a : V} {x : Number} (ha : arithmetic? a = some x) : cvf env a = x.toF64 := by
  cases a <;> simp only [arithmetic?, reduceCtorEq, Option.some.injEq] at ha <;> subst ha <;> first | rfl | exact bool_cvf _

/-- Numbers (and booleans, as 0 and 1) that are not NaN: exactly one of `<`, `==`, `>` holds, and `<=` and
`>=` are as they should be. -/
theorem C25_numbers (a b : V) (x y : Number) (ha : arithmetic? a = some x) (hb : arithmetic? b = some y) (hx : x.Ordered) (hy : y.Ordered) :
    ∃ lt eq gt, Coherent env a b lt eq gt := by
  have ha' : (arithmetic? a).isSome := by rw [ha]; rfl
  have hb' : (arithmetic? b).isSome := by rw [hb]; rfl
  have fa := cvf_ordered env ha
  have fb := cvf_ordered env hb
  have hx : (cvf env a).isNaN = false := by rw [fa]; exact hx
  have hy : (cvf env b).isNaN = false := by rw [fb]; exact hy
  have hE := eqVal_arith env ha' hb'
  rw [eqNum_eq] at hE
  by_cases hf : (isFloat a || isFloat b) = true
  · rw [if_pos hf] at hE
    refine ⟨(cvf env a).flt (cvf env b), (cvf env a).feq (cvf env b), (cvf env b).flt (cvf env a), ?_, ?_, ?_, ?_, ?_, key_trichotomy hx hy⟩
    · rw [yields2_ok rfl, relation_arith env ha' hb', if_pos hf]
    · rw [eq_yields, hE]
    · rw [yields2_ok rfl, relation_arith env ha' hb', if_pos hf]
    · rw [yields2_ok rfl, relation_arith env ha' hb', if_pos hf, key_le hx hy]
    · rw [yields2_ok rfl, relation_arith env ha' hb', if_pos hf, key_le hy hx, F64.feq_comm]
  · rw [if_neg hf] at hE
    refine ⟨cvi env a < cvi env b, cvi env a == cvi env b, cvi env b < cvi env a, ?_, ?_, ?_, ?_, ?_, ?_⟩
    · rw [yields2_ok rfl, relation_arith env ha' hb', if_neg hf]
    · rw [eq_yields, hE]
    · rw [yields2_ok rfl, relation_arith env ha' hb', if_neg hf]
    · rw [yields2_ok rfl, relation_arith env ha' hb', if_neg hf]
      congr 1
      rw [Bool.eq_iff_iff]
      simp only [decide_eq_true_eq, Bool.or_eq_true, beq_iff_eq, Int64.le_iff_toInt_le, Int64.lt_iff_toInt_lt, i64_eq]
      omega
    · rw [yields2_ok rfl, relation_arith env ha' hb', if_neg hf]
      congr 1
      rw [Bool.eq_iff_iff]
      simp only [decide_eq_true_eq, Bool.or_eq_true, beq_iff_eq, ge_iff_le, Int64.le_iff_toInt_le, Int64.lt_iff_toInt_lt, i64_eq]
      omega
    · simp only [decide_eq_true_eq, decide_eq_false_iff_not, beq_iff_eq, beq_eq_false_iff_ne, ne_eq, Int64.lt_iff_toInt_lt, i64_eq]
      omega

example := C25_numbers Ex.env (.int 3) (.float .one) (.int 3) (.float .one) rfl rfl (F64.ofInt_not_nan 3) (by show F64.one.isNaN = false; decide)

/-- `<` on numbers is the order of the numbers, exact for two integers. -/
theorem C25_lt_numbers (a b : V) (x y : Number) (ha : arithmetic? a = some x) (hb : arithmetic? b = some y) :
    Yields2 env .lt a b (.bool true) ↔ x.Lt y := by
  have ha' : (arithmetic? a).isSome := by rw [ha]; rfl
  have hb' : (arithmetic? b).isSome := by rw [hb]; rfl
  rw [yields2_ok rfl, relation_arith env ha' hb', cvf_ordered env ha, cvf_ordered env hb]
  rcases arith_cases env a with ⟨h1, h2, h3⟩ | ⟨m, h1, h2, h3, h4, h5, h6⟩ | ⟨f, h1, rfl⟩
  · rw [h1] at ha; cases ha
  all_goals
    rcases arith_cases env b with ⟨k1, k2, k3⟩ | ⟨n, k1, k2, k3, k4, k5, k6⟩ | ⟨g, k1, rfl⟩
  · rw [k1] at hb; cases hb
  · rw [h1] at ha; rw [k1] at hb; cases ha; cases hb
    simp [h2, h4, k2, k4, Number.Lt, Int64.lt_iff_toInt_lt]
  · rw [h1] at ha; rw [k1] at hb; cases ha; cases hb
    simp [isFloat, Number.Lt]
  · rw [k1] at hb; cases hb
  · rw [h1] at ha; rw [k1] at hb; cases ha; cases hb
    simp [isFloat, Number.Lt]
  · rw [h1] at ha; rw [k1] at hb; cases ha; cases hb
    simp [isFloat, Number.Lt]

example := C25_lt_numbers Ex.env (.bool true) (.float .one) (boolToNumber true) (.float .one) rfl rfl

theorem bytesLt_iff : ∀ s t : Bytes, bytesLt s t = true ↔ s < t
  | [], [] => by simp [bytesLt]
  | [], _ :: _ => by simp [bytesLt]
  | _ :: _, [] => by simp [bytesLt]
  | a :: as, b :: bs => by
    rw [bytesLt, List.cons_lt_cons_iff]
    by_cases h1 : a < b
    · simp [h1]
    · by_cases h2 : b < a
      · have : a ≠ b := by rintro rfl; exact h1 h2
        simp [h1, h2, this]
      · have : a = b := UInt8.le_antisymm (UInt8.not_lt.1 h2) (UInt8.not_lt.1 h1)
        subst this
        simp [h1, bytesLt_iff as bs]

private theorem bytes_trichotomy : ∀ s t : Bytes,
    (bytesLt s t = true ∧ s ≠ t ∧ bytesLt t s = false) ∨ (bytesLt s t = false ∧ s = t ∧ bytesLt t s = false) ∨
      (bytesLt s t = false ∧ s ≠ t ∧ bytesLt t s = true)
  | [], [] => by simp [bytesLt]
  | [], _ :: _ => by simp [bytesLt]
  | _ :: _, [] => by simp [bytesLt]
  | a :: as, b :: bs => by
    rw [bytesLt, bytesLt]
    by_cases h1 : a < b
    · have h2 : ¬ b < a := fun h2 => absurd (UInt8.lt_trans h1 h2) (UInt8.lt_irrefl _)
      have : a ≠ b := by rintro rfl; exact h2 h1
      simp [h1, h2, this]
    · by_cases h2 : b < a
      · have : a ≠ b := by rintro rfl; exact h1 h2
        simp [h1, h2, this]
      · have : a = b := UInt8.le_antisymm (UInt8.not_lt.1 h2) (UInt8.not_lt.1 h1)
        subst this
        simp only [h1, if_false]
        simpa using bytes_trichotomy as bs

/-- Strings, in the lexicographic order of their bytes. -/
theorem C25_strings (s t : Bytes) :
    Coherent env (.str s) (.str t) (decide (s < t)) (decide (s = t)) (decide (t < s)) := by
  have h1 : decide (s < t) = bytesLt s t := by rw [Bool.eq_iff_iff, decide_eq_true_eq, bytesLt_iff]
  have h2 : decide (t < s) = bytesLt t s := by rw [Bool.eq_iff_iff, decide_eq_true_eq, bytesLt_iff]
  have hr : ∀ i f g, relation env (.str s) (.str t) i f g = .bool (g s t) := fun _ _ _ => rfl
  rw [h1, h2]
  have tri := bytes_trichotomy s t
  refine ⟨?_, ?_, ?_, ?_, ?_, ?_⟩
  · rw [yields2_ok rfl, hr]
  · rw [eq_yields]
    simp [eqVal, typeOf]
    rw [Bool.eq_iff_iff, decide_eq_true_eq, beq_iff_eq]
  · rw [yields2_ok rfl, hr]
  · rw [yields2_ok rfl, hr]
    rcases tri with ⟨h1, h2, h3⟩ | ⟨h1, h2, h3⟩ | ⟨h1, h2, h3⟩ <;> simp [h1, h2, h3]
    subst h2; exact h1
  · rw [yields2_ok rfl, hr]
    rcases tri with ⟨h1, h2, h3⟩ | ⟨h1, h2, h3⟩ | ⟨h1, h2, h3⟩ <;> simp [h1, h2, h3]
    subst h2; exact h1
  · rcases tri with ⟨h1, h2, h3⟩ | ⟨h1, h2, h3⟩ | ⟨h1, h2, h3⟩
    · exact .inl ⟨h1, by simpa using h2, h3⟩
    · exact .inr (.inl ⟨h1, by simpa using h2, h3⟩)
    · exact .inr (.inr ⟨h1, by simpa using h2, h3⟩)

private theorem relation_swap (a b : V) (i j : Int64 → Int64 → Bool) (f g : F64 → F64 → Bool) (s t : Bytes → Bytes → Bool)
    (hi : ∀ x y, i x y = j y x) (hf : ∀ x y, f x y = g y x) (hs : ∀ x y, s x y = t y x) : relation env a b i f s = relation env b a j g t := by
  unfold relation
  simp only [Bool.or_comm (isNothing b), Bool.and_comm (isSimple b), Bool.or_comm (isString b), Bool.and_comm (isString b), Bool.or_comm (isFloat b),
    hi, hf, hs]

/-- `a < b` is `b > a`, and `a <= b` is `b >= a`, whatever the values. -/
theorem C25_swap (a b r : V) : (Yields2 env .lt a b r ↔ Yields2 env .gt b a r) ∧ (Yields2 env .le a b r ↔ Yields2 env .ge b a r) := by
  constructor
  · rw [yields2_ok rfl, yields2_ok rfl, relation_swap env a b _ _ _ _ _ _ (fun _ _ => rfl) (fun _ _ => rfl) (fun _ _ => rfl)]
  · rw [yields2_ok rfl, yields2_ok rfl, relation_swap env a b _ _ _ _ _ _ (fun _ _ => rfl) (fun _ _ => rfl) (fun _ _ => rfl)]

/-- A string with a non-string, and anything with an array, object or null: all four comparisons are false. -/
theorem C25_incomparable (op : Op) (hop : op ∈ [Op.lt, .le, .gt, .ge]) (a b : V) (ha : ¬ Failed a) (hb : ¬ Failed b)
    (h : arithmetic? a = none ∨ arithmetic? b = none) (hs : (∀ s, a ≠ .str s) ∨ (∀ s, b ≠ .str s)) :
    Yields2 env op a b (.bool false) := by
  have h1 : isNothing a = false := by cases a <;> simp [Failed, isNothing] at ha ⊢
  have h2 : isNothing b = false := by cases b <;> simp [Failed, isNothing] at hb ⊢
  have key : ∀ i f g, relation env a b i f g = .bool false := by
    intro i f g
    unfold relation
    rw [h1, h2]
    cases a <;> simp only [isSimple, isString, Bool.or_self, Bool.false_and, Bool.not_false, if_true, Bool.false_eq_true, if_false, Bool.true_and] <;>
      cases b <;> simp [arithmetic?] at h hs ⊢
  simp only [List.mem_cons, List.not_mem_nil, or_false] at hop
  rcases hop with rfl | rfl | rfl | rfl <;> rw [yields2_ok rfl, key]

example : ∃ lt eq gt, Coherent Ex.env (.int 3) (.float .one) lt eq gt :=
  C25_numbers _ _ _ (.int 3) (.float .one) rfl rfl (F64.ofInt_not_nan 3) (by show F64.one.isNaN = false; decide)

end JP
