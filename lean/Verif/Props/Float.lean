import Verif.Props.Functions
import Verif.Proof.Round
/-!
What the operators and functions on floats yield, as numbers: C24, C25, C27, C44.

`F64.Rounds q z` (Spec/Float.lean) says that `z` is the float nearest to the rational number `q`, the one with
an even fraction of two that are equally near, and an infinity beyond the greatest float.
-/
namespace JP
open Spec F64

variable (env : Env)

/-- At least one of two numbers is a float. -/
def OneFloat (x y : Number) : Prop := (∃ f, x = .float f) ∨ ∃ f, y = .float f

private theorem compute_float {intf : Int → Int → Int} {floatf : F64 → F64 → F64} {x y : Number} (h : OneFloat x y) :
    compute intf floatf x y = .float (floatf x.toF64 y.toF64) := by
  rcases h with ⟨f, rfl⟩ | ⟨f, rfl⟩
  · rfl
  · cases x <;> rfl

private theorem arithSpec_float {intf : Int → Int → Int} {floatf : F64 → F64 → F64} {a b : V} {x y : Number}
    (ha : arithmetic? a = some x) (hb : arithmetic? b = some y) (h : OneFloat x y) :
    arithSpec intf floatf a b = .float (floatf x.toF64 y.toF64) := by
  simp only [arithSpec, ha, hb, compute_float h]

private theorem isZero_iff {y : Number} : y.isZero = true ↔ y.toF64.mag = 0 := by
  have hz : ∀ f : F64, f.feq .zero = true ↔ f.mag = 0 := by
    intro f
    rw [feq_zero]
    constructor
    · rintro (rfl | rfl) <;> decide
    · intro h
      cases hs : f.neg?
      · exact .inl (ext_mag (by rw [hs]; decide) (by rw [h]; decide))
      · exact .inr (ext_mag (by rw [hs]; decide) (by rw [h]; decide))
  cases y with
  | int n => rw [Number.toF64, ← hz, ofInt_feq_zero]; simp [Number.isZero]
  | float f => exact hz f

private theorem divSpec_float {intf : Int → Int → Int} {floatf : F64 → F64 → F64} {a b : V} {x y : Number}
    (ha : arithmetic? a = some x) (hb : arithmetic? b = some y) (h : OneFloat x y) (h0 : y.toF64.mag ≠ 0) :
    divSpec intf floatf a b = .float (floatf x.toF64 y.toF64) := by
  have : y.isZero = false := by
    cases hz : y.isZero
    · rfl
    · exact absurd (isZero_iff.1 hz) h0
  simp only [divSpec, ha, hb, this, compute_float h, Bool.false_eq_true, if_false]

/-! ### C24 Arithmetic -/

/-- An integer that meets a float is converted to the nearest float; up to `2^53` it is not changed. -/
theorem C24_convert (n : Int) : Rounds n (Number.int n).toF64 ∧
    (n.natAbs ≤ 2 ^ 53 → (Number.int n).toF64.Finite ∧ (Number.int n).toF64.val = n) := by
  refine ⟨rounds_ofInt n, fun h => ?_⟩
  obtain ⟨m, h1, h2⟩ := representable n.natAbs 0 h (by norm_num) (by
    rw [zpow_zero, mul_one]
    have h53 : ((n.natAbs : Nat) : ℚ) ≤ 2 ^ 53 := by exact_mod_cast h
    exact lt_of_le_of_lt h53 (pow_lt_pow_right₀ (by norm_num) (by norm_num)))
  rw [zpow_zero, mul_one] at h2
  refine (rounds_ofInt n).exact (z := mk' (decide (n < 0)) m) (by unfold F64.Finite; rw [finite_mk' h1]; exact h1) ?_
  rw [val_mk' h1, h2, natAbs_cast]
  by_cases hn : n < 0
  · have : (n : ℚ) < 0 := by exact_mod_cast hn
    simp [hn, abs_of_neg this]
  · have : (0 : ℚ) ≤ n := by exact_mod_cast not_lt.1 hn
    simp [hn, abs_of_nonneg this]

/-- Every 64-bit integer becomes a finite float. -/
theorem C24_convert_finite (n : Int64) : (Number.int n.toInt).toF64.Finite := by
  have h := rounds_ofInt n.toInt
  have hr := i64_range n
  have hle : (Number.int n.toInt).toF64.mag ≤ infMag := round_mag_le _ _ _
  have : ¬ (ofInt n.toInt).isInf = true := by
    rw [h.overflow, not_le]
    have h63 : |((n.toInt : ℤ) : ℚ)| ≤ 2 ^ 63 := by
      rw [abs_le]
      constructor
      · have : ((-2 ^ 63 : ℤ) : ℚ) ≤ n.toInt := by exact_mod_cast hr.1
        push_cast at this; exact this
      · have : ((n.toInt : ℤ) : ℚ) ≤ ((2 ^ 63 : ℤ) : ℚ) := by exact_mod_cast le_of_lt hr.2
        push_cast at this; exact this
    refine lt_of_le_of_lt h63 ?_
    unfold limit
    rw [show (1024 : Nat) = 54 + 970 from rfl, pow_add, show (970 : Nat) = 63 + 907 from rfl, pow_add]
    have : (1 : ℚ) ≤ 2 ^ 907 := one_le_pow₀ (by norm_num)
    generalize (2 : ℚ) ^ 907 = a at this
    norm_num
    linarith
  unfold F64.Finite
  simp only [isInf, beq_iff_eq] at this
  exact lt_of_le_of_ne hle this

/-- `+` on finite numbers, at least one a float, yields the sum, correctly rounded.  A sum that is zero is
negative only if both are. -/
theorem C24_add_rounds (a b : V) (x y : Number) (ha : arithmetic? a = some x) (hb : arithmetic? b = some y) (h : OneFloat x y)
    (hx : x.toF64.Finite) (hy : y.toF64.Finite) :
    ∃ z, Yields2 env .add a b (.float z) ∧ Rounds (x.toF64.val + y.toF64.val) z ∧
      (x.toF64.val + y.toF64.val = 0 → z.neg? = (x.toF64.neg? && y.toF64.neg?)) :=
  ⟨_, (C24_add env a b _).2 (arithSpec_float ha hb h).symm, rounds_fadd hx hy, fadd_zero_sign hx hy⟩

example := C24_add_rounds Ex.env (.int 1) (.float .one) (.int 1) (.float .one) rfl rfl (.inr ⟨_, rfl⟩)
  (by unfold F64.Finite; decide +kernel) (by unfold F64.Finite; decide +kernel)

/-- `-` yields the difference, correctly rounded. -/
theorem C24_sub_rounds (a b : V) (x y : Number) (ha : arithmetic? a = some x) (hb : arithmetic? b = some y) (h : OneFloat x y)
    (hx : x.toF64.Finite) (hy : y.toF64.Finite) :
    ∃ z, Yields2 env .sub a b (.float z) ∧ Rounds (x.toF64.val - y.toF64.val) z ∧
      (x.toF64.val - y.toF64.val = 0 → z.neg? = (x.toF64.neg? && !y.toF64.neg?)) := by
  refine ⟨_, (C24_sub env a b _).2 (arithSpec_float ha hb h).symm, rounds_fsub hx hy, fun h0 => ?_⟩
  rw [fsub, (not_special hy).1]
  simp only [Bool.false_eq_true, if_false]
  rw [fadd_zero_sign hx (finite_fneg hy) (by rw [val_fneg]; linarith), neg_fneg]

example := C24_sub_rounds Ex.env (.int 1) (.float .one) (.int 1) (.float .one) rfl rfl (.inr ⟨_, rfl⟩)
  (by unfold F64.Finite; decide +kernel) (by unfold F64.Finite; decide +kernel)

/-- `*` yields the product, correctly rounded, with the sign of a product. -/
theorem C24_mul_rounds (a b : V) (x y : Number) (ha : arithmetic? a = some x) (hb : arithmetic? b = some y) (h : OneFloat x y)
    (hx : x.toF64.Finite) (hy : y.toF64.Finite) :
    ∃ z, Yields2 env .mul a b (.float z) ∧ Rounds (x.toF64.val * y.toF64.val) z ∧ z.neg? = (x.toF64.neg? != y.toF64.neg?) :=
  ⟨_, (C24_mul env a b _).2 (arithSpec_float ha hb h).symm, rounds_fmul hx hy⟩

example := C24_mul_rounds Ex.env (.int 1) (.float .one) (.int 1) (.float .one) rfl rfl (.inr ⟨_, rfl⟩)
  (by unfold F64.Finite; decide +kernel) (by unfold F64.Finite; decide +kernel)

private theorem mag_of_val {y : F64} (h : y.val ≠ 0) : y.mag ≠ 0 := by
  intro h0
  refine h ?_
  unfold val
  rw [h0, magVal_zero]
  simp

/-- `/` yields the quotient, correctly rounded, unless the divisor is zero. -/
theorem C24_div_rounds (a b : V) (x y : Number) (ha : arithmetic? a = some x) (hb : arithmetic? b = some y) (h : OneFloat x y)
    (hx : x.toF64.Finite) (hy : y.toF64.Finite) (h0 : y.toF64.val ≠ 0) :
    ∃ z, Yields2 env .div a b (.float z) ∧ Rounds (x.toF64.val / y.toF64.val) z ∧ z.neg? = (x.toF64.neg? != y.toF64.neg?) :=
  ⟨_, (C24_div env a b _).2 (divSpec_float ha hb h (mag_of_val h0)).symm, rounds_fdiv hx hy (mag_of_val h0)⟩

example := C24_div_rounds Ex.env (.int 1) (.float .one) (.int 1) (.float .one) rfl rfl (.inr ⟨_, rfl⟩)
  (by unfold F64.Finite; decide +kernel) (by unfold F64.Finite; decide +kernel) (by decide +kernel)

/-- `%` yields the exact remainder: what is left of the dividend after a whole number of divisors, less than
the divisor and with the sign of the dividend. -/
theorem C24_mod_exact (a b : V) (x y : Number) (ha : arithmetic? a = some x) (hb : arithmetic? b = some y) (h : OneFloat x y)
    (hx : x.toF64.Finite) (hy : y.toF64.Finite) (h0 : y.toF64.val ≠ 0) :
    ∃ z, Yields2 env .mod a b (.float z) ∧ z.Finite ∧ z.neg? = x.toF64.neg? ∧ |z.val| < |y.toF64.val| ∧
      ∃ k : ℤ, x.toF64.val = k * y.toF64.val + z.val :=
  ⟨_, (C24_mod env a b _).2 (divSpec_float ha hb h (mag_of_val h0)).symm, fmod_spec hx hy (mag_of_val h0)⟩

example := C24_mod_exact Ex.env (.int 1) (.float .one) (.int 1) (.float .one) rfl rfl (.inr ⟨_, rfl⟩)
  (by unfold F64.Finite; decide +kernel) (by unfold F64.Finite; decide +kernel) (by decide +kernel)

/-- A divisor that is zero, of either sign and of either type, gives failure. -/
theorem C24_zero_divisor (a b : V) (y : Number) (hb : arithmetic? b = some y) (h0 : y.toF64.val = 0) :
    Yields2 env .div a b .nothing ∧ Yields2 env .mod a b .nothing := by
  have : y.isZero = true := by
    rw [isZero_iff]
    by_contra h
    have : 0 < magVal y.toF64.mag := by rw [← magVal_zero]; exact magVal_mono (Nat.pos_of_ne_zero h)
    rw [← abs_val, h0, abs_zero] at this
    exact lt_irrefl _ this
  constructor
  · refine (C24_div env a b _).2 ?_
    unfold divSpec
    rw [hb]
    cases arithmetic? a <;> simp [this]
  · refine (C24_mod env a b _).2 ?_
    unfold divSpec
    rw [hb]
    cases arithmetic? a <;> simp [this]

example := C24_zero_divisor Ex.env (.int 1) (.float .zero) (.float .zero) rfl (by decide +kernel)

/-- NaN: every operation on it yields NaN (unless the divisor is zero). -/
theorem C24_nan (a b : V) (x y : Number) (ha : arithmetic? a = some x) (hb : arithmetic? b = some y)
    (h : x.toF64.isNaN = true ∨ y.toF64.isNaN = true) :
    Yields2 env .add a b (.float .nan) ∧ Yields2 env .sub a b (.float .nan) ∧ Yields2 env .mul a b (.float .nan) ∧
    (y.toF64.mag ≠ 0 → Yields2 env .div a b (.float .nan) ∧ Yields2 env .mod a b (.float .nan)) := by
  have hf : OneFloat x y := by
    cases x with
    | float f => exact .inl ⟨f, rfl⟩
    | int m =>
      cases y with
      | float f => exact .inr ⟨f, rfl⟩
      | int n =>
        have h1 := ofInt_not_nan m
        have h2 := ofInt_not_nan n
        simp only [Number.toF64] at h
        rw [h1, h2] at h
        simp at h
  have hor : (x.toF64.isNaN || y.toF64.isNaN) = true := by simpa using h
  refine ⟨?_, ?_, ?_, fun h0 => ⟨?_, ?_⟩⟩
  · rw [C24_add, arithSpec_float ha hb hf, fadd, if_pos hor]
  · rw [C24_sub, arithSpec_float ha hb hf, fsub]
    split
    · rfl
    · rw [fadd, isNaN_fneg, if_pos hor]
  · rw [C24_mul, arithSpec_float ha hb hf]
    simp only [fmul, hor, if_true]
  · rw [C24_div, divSpec_float ha hb hf h0]
    simp only [fdiv, hor, if_true]
  · rw [C24_mod, divSpec_float ha hb hf h0, fmod, hor]
    simp

example := C24_nan Ex.env (.int 1) (.float .nan) (.int 1) (.float .nan) rfl rfl (.inr (by decide +kernel))

/-- Infinities, which arise when a result is too great. -/
structure Infinite (env : Env) (a b : V) (x y : F64) : Prop where
  /-- Sums: the infinite term, or NaN if both are infinite and of opposite signs. -/
  add : Yields2 env .add a b (.float (if x.isInf && y.isInf && (x.neg? != y.neg?) then .nan else if x.isInf then x else y))
  sub : Yields2 env .sub a b (.float (if x.isInf && y.isInf && (x.neg? == y.neg?) then .nan else if x.isInf then x else y.fneg))
  /-- Products: infinite, or NaN if the other factor is zero. -/
  mul : Yields2 env .mul a b (.float (if x.mag = 0 ∨ y.mag = 0 then .nan else .inf (x.neg? != y.neg?)))
  /-- Quotients: infinite if the dividend is, zero if the divisor is, NaN if both are. -/
  div : y.mag ≠ 0 → Yields2 env .div a b (.float (if x.isInf && y.isInf then .nan else if x.isInf then .inf (x.neg? != y.neg?)
    else .mk' (x.neg? != y.neg?) 0))
  /-- Remainders: NaN if the dividend is infinite, otherwise the dividend. -/
  mod : y.mag ≠ 0 → Yields2 env .mod a b (.float (if x.isInf then .nan else x))

/-- Arithmetic with an infinity. -/
theorem C24_infinite (a b : V) (x y : Number) (ha : arithmetic? a = some x) (hb : arithmetic? b = some y) (h : OneFloat x y)
    (hx : x.toF64.isNaN = false) (hy : y.toF64.isNaN = false) (hi : x.toF64.isInf = true ∨ y.toF64.isInf = true) :
    Infinite env a b x.toF64 y.toF64 := by
  have i1 : ∀ z : F64, z.isInf = true → z.mag ≠ 0 := by
    intro z hz h0
    simp only [isInf, beq_iff_eq] at hz
    rw [h0] at hz
    revert hz; decide
  constructor
  · rw [C24_add, arithSpec_float ha hb h, fadd]
    generalize x.toF64 = x at *
    generalize y.toF64 = y at *
    rcases hi with hi | hi <;> cases hxi : x.isInf <;> cases hyi : y.isInf <;> simp_all
  · rw [C24_sub, arithSpec_float ha hb h, fsub, hy]
    have e1 : y.toF64.fneg.isInf = y.toF64.isInf := by unfold isInf; rw [mag_fneg]
    simp only [Bool.false_eq_true, if_false, fadd, isNaN_fneg, e1, neg_fneg]
    generalize x.toF64 = x at *
    generalize y.toF64 = y at *
    have e2 : (x.neg? != !y.neg?) = (x.neg? == y.neg?) := by cases x.neg? <;> cases y.neg? <;> rfl
    rw [e2]
    rcases hi with hi | hi <;> cases hxi : x.isInf <;> cases hyi : y.isInf <;> simp_all
  · rw [C24_mul, arithSpec_float ha hb h]
    have hor : (x.toF64.isInf || y.toF64.isInf) = true := by simpa using hi
    simp only [fmul, hx, hy, Bool.or_self, Bool.false_eq_true, if_false, hor, if_true, Bool.or_eq_true, decide_eq_true_eq]
  · intro h0
    rw [C24_div, divSpec_float ha hb h h0]
    simp only [fdiv, hx, hy, Bool.or_self, Bool.false_eq_true, if_false]
    generalize x.toF64 = x at *
    generalize y.toF64 = y at *
    rcases hi with hi | hi <;> cases hxi : x.isInf <;> cases hyi : y.isInf <;> simp_all
  · intro h0
    rw [C24_mod, divSpec_float ha hb h h0]
    simp only [fmod, hx, hy, Bool.or_self, Bool.false_or, h0, decide_false, Bool.or_false]
    generalize x.toF64 = x at *
    generalize y.toF64 = y at *
    rcases hi with hi | hi <;> cases hxi : x.isInf <;> cases hyi : y.isInf <;> simp_all

example : OneFloat (.int 1) (.float .one) := .inr ⟨_, rfl⟩
example : F64.one.Finite ∧ F64.one.mag ≠ 0 := by unfold F64.Finite; decide +kernel
example : (F64.inf true).isInf = true ∧ (F64.inf true).isNaN = false := by decide +kernel
example : F64.one.val = 1 := by
  have : one.mag = 1023 * 2 ^ 52 := by decide +kernel
  have hs : one.neg? = false := by decide +kernel
  simp [val, magVal, this, hs]
  norm_num

/-! ### C25 Relational operators -/

/-- Finite numbers, at least one a float, are compared by the numbers they stand for. -/
theorem C25_float_order (a b : V) (x y : Number) (ha : arithmetic? a = some x) (hb : arithmetic? b = some y) (h : OneFloat x y)
    (hx : x.toF64.Finite) (hy : y.toF64.Finite) :
    Coherent env a b (x.toF64.val < y.toF64.val) (x.toF64.val = y.toF64.val) (y.toF64.val < x.toF64.val) := by
  obtain ⟨hx1, -⟩ := not_special hx
  obtain ⟨hy1, -⟩ := not_special hy
  obtain ⟨lt, eq, gt, hc⟩ := C25_numbers env a b x y ha hb hx1 hy1
  have hlt : lt = decide (x.toF64.val < y.toF64.val) := by
    have h1 := C25_lt_numbers env a b x y ha hb
    have h2 : x.Lt y ↔ x.toF64.val < y.toF64.val := by
      rw [← key_lt_iff]
      have : x.Lt y ↔ x.toF64.flt y.toF64 = true := by
        rcases h with ⟨f, rfl⟩ | ⟨f, rfl⟩
        · rfl
        · cases x <;> rfl
      rw [this, flt_iff]
      simp [hx1, hy1]
    have h3 : Yields2 env .lt a b (.bool true) ↔ lt = true := by
      rw [yields2_ok (op := .lt) rfl]
      have := (yields2_ok (op := .lt) rfl).1 hc.yields_lt
      rw [← this]; simp [eq_comm]
    rw [Bool.eq_iff_iff, ← h3, h1, h2]; simp
  have hgt : gt = decide (y.toF64.val < x.toF64.val) := by
    have h1 := C25_lt_numbers env b a y x hb ha
    have h2 : y.Lt x ↔ y.toF64.val < x.toF64.val := by
      rw [← key_lt_iff]
      have : y.Lt x ↔ y.toF64.flt x.toF64 = true := by
        rcases h with ⟨f, rfl⟩ | ⟨f, rfl⟩
        · cases y <;> rfl
        · rfl
      rw [this, flt_iff]
      simp [hx1, hy1]
    have h3 : Yields2 env .lt b a (.bool true) ↔ gt = true := by
      rw [(C25_swap env b a _).1, yields2_ok (op := .gt) rfl]
      have := (yields2_ok (op := .gt) rfl).1 hc.yields_gt
      rw [← this]; simp [eq_comm]
    rw [Bool.eq_iff_iff, ← h3, h1, h2]; simp
  have heq : eq = decide (x.toF64.val = y.toF64.val) := by
    have ho := hc.one
    rw [hlt, hgt] at ho
    rw [Bool.eq_iff_iff, decide_eq_true_eq]
    rcases lt_trichotomy x.toF64.val y.toF64.val with h | h | h
    · simp [h, h.ne] at ho ⊢; exact ho.1
    · simp [h] at ho ⊢; exact ho
    · simp [h, h.ne', not_lt.2 h.le] at ho ⊢; exact ho
  rw [hlt, hgt, heq] at hc
  exact hc

example := C25_float_order Ex.env (.int 1) (.float .one) (.int 1) (.float .one) rfl rfl (.inr ⟨_, rfl⟩)
  (by unfold F64.Finite; decide +kernel) (by unfold F64.Finite; decide +kernel)

/-! ### C27 sum, prod and avg -/

/-- The integers in a list. -/
def ints? : List V → Option (List Int)
  | [] => some []
  | .int n :: r => (ints? r).map (n.toInt :: ·)
  | _ :: _ => none

/-- The sum of the magnitudes. -/
def magnitude (ns : List Int) : Nat := (ns.map Int.natAbs).sum

private theorem floats_of_ints : ∀ {xs : List V} {ns : List Int}, ints? xs = some ns → floats? xs = some (ns.map F64.ofInt)
  | [], ns, h => by simp [ints?] at h; subst h; rfl
  | v :: r, ns, h => by
    cases v <;> simp only [ints?, reduceCtorEq, Option.map_eq_some_iff] at h
    obtain ⟨ms, h1, rfl⟩ := h
    simp [floats?, arithmetic?, floats_of_ints h1, Number.toF64]

private theorem small_int {n : Int} (h : n.natAbs ≤ 2 ^ 53) : (ofInt n).Finite ∧ (ofInt n).val = n := (C24_convert n).2 h

private theorem fold_sum : ∀ (ns : List Int) (z : F64) (m : Int), z.Finite → z.val = m → m.natAbs + magnitude ns ≤ 2 ^ 53 →
    ((ns.map F64.ofInt).foldl fadd z).Finite ∧ ((ns.map F64.ofInt).foldl fadd z).val = ((m + ns.sum : ℤ) : ℚ)
  | [], z, m, hz, hv, _ => ⟨hz, by simpa using hv⟩
  | n :: ns, z, m, hz, hv, hb => by
    simp only [magnitude, List.map_cons, List.sum_cons] at hb
    obtain ⟨h1, h2⟩ := small_int (n := n) (by omega)
    obtain ⟨h3, h4⟩ := small_int (n := m + n) (by omega)
    have hr := rounds_fadd hz h1
    rw [hv, h2] at hr
    obtain ⟨h5, h6⟩ := hr.exact h3 (by rw [h4]; push_cast; rfl)
    have := fold_sum ns (fadd z (ofInt n)) (m + n) h5 (by rw [h6]; push_cast; rfl) (by unfold magnitude; omega)
    simp only [List.map_cons, List.foldl_cons, List.sum_cons]
    rw [← add_assoc]
    exact this

/-- The `sum` of integers whose magnitudes do not add up to more than `2^53` is exact. -/
theorem C27_sum_exact (xs : List V) (ns : List Int) (h : ints? xs = some ns) (hb : magnitude ns ≤ 2 ^ 53) :
    ∃ z, YieldsCall env (b! "sum") [.arr xs] (.float z) ∧ z.Finite ∧ z.val = (ns.sum : ℤ) := by
  have := C27_sum env xs
  rw [floats_of_ints h] at this
  have hz : F64.zero.Finite ∧ F64.zero.val = ((0 : ℤ) : ℚ) := by
    have := small_int (n := 0) (by decide)
    rwa [ofInt_zero] at this
  obtain ⟨h1, h2⟩ := fold_sum ns .zero 0 hz.1 hz.2 (by simpa using hb)
  exact ⟨_, this, h1, by rw [h2, zero_add]⟩

example := C27_sum_exact Ex.env [.int 3, .int (-4)] [3, -4] (by decide) (by decide)

/-- Their average is the float nearest to the exact average. -/
theorem C27_avg_rounds (xs : List V) (ns : List Int) (h : ints? xs = some ns) (hb : magnitude ns ≤ 2 ^ 53) (hl : ns.length ≤ 2 ^ 53)
    (hne : ns ≠ []) :
    ∃ z, YieldsCall env (b! "avg") [.arr xs] (.float z) ∧ Rounds ((ns.sum : ℤ) / (ns.length : ℚ)) z := by
  have := C27_avg env xs
  rw [floats_of_ints h] at this
  have hz : F64.zero.Finite ∧ F64.zero.val = ((0 : ℤ) : ℚ) := by
    have := small_int (n := 0) (by decide)
    rwa [ofInt_zero] at this
  obtain ⟨h1, h2⟩ := fold_sum ns .zero 0 hz.1 hz.2 (by simpa using hb)
  refine ⟨_, this, ?_⟩
  rw [List.length_map]
  obtain ⟨h3, h4⟩ := small_int (n := ns.length) (by omega)
  have hp : 0 < ns.length := List.length_pos_iff.2 hne
  have hr := (rounds_fdiv h1 h3 (mag_of_val (by rw [h4]; simp; omega))).1
  rw [h2, h4, zero_add] at hr
  exact_mod_cast hr

example := C27_avg_rounds Ex.env [.int 3, .int (-4)] [3, -4] (by decide) (by decide) (by decide) (by decide)

/-- Upper bound of the magnitude of every partial product. -/
def factorsMagnitude (ns : List Int) : Nat := (ns.map fun n => max 1 n.natAbs).prod

private theorem factors_pos : ∀ ns : List Int, 1 ≤ factorsMagnitude ns
  | [] => le_refl _
  | n :: ns => by
    have := factors_pos ns
    simp only [factorsMagnitude, List.map_cons, List.prod_cons] at this ⊢
    exact Nat.one_le_iff_ne_zero.2 (Nat.mul_ne_zero (by omega) (by omega))

private theorem fold_prod : ∀ (ns : List Int) (z : F64) (m : Int), z.Finite → z.val = m →
    max 1 m.natAbs * factorsMagnitude ns ≤ 2 ^ 53 →
    ((ns.map F64.ofInt).foldl fmul z).Finite ∧ ((ns.map F64.ofInt).foldl fmul z).val = ((m * ns.prod : ℤ) : ℚ)
  | [], z, m, hz, hv, _ => ⟨hz, by simpa using hv⟩
  | n :: ns, z, m, hz, hv, hb => by
    have hpos := factors_pos ns
    simp only [factorsMagnitude, List.map_cons, List.prod_cons] at hb hpos
    rw [← mul_assoc] at hb
    have hmn : max 1 (m * n).natAbs ≤ max 1 m.natAbs * max 1 n.natAbs := by
      rw [Int.natAbs_mul]
      refine max_le ?_ (Nat.mul_le_mul (le_max_right _ _) (le_max_right _ _))
      exact Nat.one_le_iff_ne_zero.2 (Nat.mul_ne_zero (by omega) (by omega))
    have hmn2 : max 1 m.natAbs * max 1 n.natAbs ≤ 2 ^ 53 := le_trans (Nat.le_mul_of_pos_right _ hpos) hb
    have hn2 : n.natAbs ≤ 2 ^ 53 := by
      refine le_trans ?_ hmn2
      exact le_trans (le_max_right 1 _) (Nat.le_mul_of_pos_left _ (by omega))
    obtain ⟨h1, h2⟩ := small_int (n := n) hn2
    obtain ⟨h3, h4⟩ := small_int (n := m * n) (le_trans (le_trans (le_max_right 1 _) hmn) hmn2)
    have hr := (rounds_fmul hz h1).1
    rw [hv, h2] at hr
    obtain ⟨h5, h6⟩ := hr.exact h3 (by rw [h4]; push_cast; rfl)
    have := fold_prod ns (fmul z (ofInt n)) (m * n) h5 (by rw [h6]; push_cast; rfl)
      (le_trans (Nat.mul_le_mul_right _ hmn) hb)
    simp only [List.map_cons, List.foldl_cons, List.prod_cons]
    rw [← mul_assoc]
    exact this

/-- The `prod` of integers whose magnitudes do not multiply to more than `2^53` is exact. -/
theorem C27_prod_exact (xs : List V) (ns : List Int) (h : ints? xs = some ns) (hb : factorsMagnitude ns ≤ 2 ^ 53) (hne : ns ≠ []) :
    ∃ z, YieldsCall env (b! "prod") [.arr xs] (.float z) ∧ z.Finite ∧ z.val = (ns.prod : ℤ) := by
  have := C27_prod env xs
  rw [floats_of_ints h] at this
  cases ns with
  | nil => exact absurd rfl hne
  | cons n ns =>
    simp only [List.map_cons] at this
    simp only [factorsMagnitude, List.map_cons, List.prod_cons] at hb
    have hpos := factors_pos ns
    obtain ⟨h1, h2⟩ := small_int (n := n) (le_trans (le_max_right 1 _) (le_trans (Nat.le_mul_of_pos_right _ hpos) hb))
    obtain ⟨h3, h4⟩ := fold_prod ns _ n h1 h2 hb
    exact ⟨_, this, h3, by rw [h4, List.prod_cons]⟩

example : ints? [.int 3, .int (-4)] = some [3, -4] ∧ magnitude [3, -4] ≤ 2 ^ 53 ∧ factorsMagnitude [3, -4] ≤ 2 ^ 53 := by
  refine ⟨by decide, by decide, by decide⟩

/-! ### C44 Numeric functions -/

/-- `floor` and `ceil` of a finite float are the floats that stand for the integers below and above it; the
sign (of a zero) is kept. -/
theorem C44_ceil_floor_float (f : F64) (hf : f.Finite) :
    (∃ z, YieldsCall env (b! "floor") [.float f] (.float z) ∧ z.Finite ∧ z.val = (⌊f.val⌋ : ℤ) ∧ z.neg? = f.neg?) ∧
    (∃ z, YieldsCall env (b! "ceil") [.float f] (.float z) ∧ z.Finite ∧ z.val = (⌈f.val⌉ : ℤ) ∧ z.neg? = f.neg?) :=
  ⟨⟨_, call_known env (f := .floor) (by decide) (by simp [Fn.arity]) fun _ => rfl, floor_spec hf⟩,
    ⟨_, call_known env (f := .ceil) (by decide) (by simp [Fn.arity]) fun _ => rfl, ceil_spec hf⟩⟩

example := C44_ceil_floor_float Ex.env (F64.ofInt (-3)) (by unfold F64.Finite; decide +kernel)

/-- Infinities and NaN are returned as they are. -/
theorem C44_ceil_floor_special (f : F64) (hf : ¬ f.Finite) :
    YieldsCall env (b! "floor") [.float f] (.float f) ∧ YieldsCall env (b! "ceil") [.float f] (.float f) := by
  have h : (f.isNaN || f.isInf) = true := by
    simp only [F64.Finite, isNaN, isInf, Bool.or_eq_true, decide_eq_true_eq, beq_iff_eq] at hf ⊢
    omega
  exact ⟨call_known env (f := .floor) (by decide) (by simp [Fn.arity]) fun _ => by simp [Fn.apply, F64.floor, h],
    call_known env (f := .ceil) (by decide) (by simp [Fn.arity]) fun _ => by simp [Fn.apply, F64.ceil, h]⟩

example := C44_ceil_floor_special Ex.env (.inf true) (by unfold F64.Finite; decide +kernel)

/-- `abs` of a finite float stands for the absolute value. -/
theorem C44_abs_val (f : F64) (hf : f.Finite) : ∃ z, YieldsCall env (b! "abs") [.float f] (.float z) ∧ z.Finite ∧ z.val = |f.val| := by
  refine ⟨_, call_known env (f := .abs) (by decide) (by simp [Fn.arity]) fun ord => rfl, ?_⟩
  obtain ⟨hn, -⟩ := not_special hf
  have hz : f.flt .zero = true ↔ f.val < 0 := by
    have h0 : F64.zero.val = 0 := by
      have := (small_int (n := 0) (by decide)).2
      rwa [ofInt_zero, Int.cast_zero] at this
    rw [F64.flt_iff, key_lt_iff, h0]; simp [hn, F64.nan_zero]
  by_cases h : f.flt .zero = true
  · rw [if_pos h]; exact ⟨finite_fneg hf, by rw [val_fneg, abs_of_neg (hz.1 h)]⟩
  · rw [if_neg h]; exact ⟨hf, by rw [abs_of_nonneg (not_lt.1 (mt hz.2 h))]⟩

example : F64.Finite (F64.ofInt (-3)) ∧ ¬ F64.Finite .nan := by unfold F64.Finite; decide +kernel

end JP
