import Verif.Spec.JsArith
import Verif.Props.Float
import Verif.Props.Total
import Verif.Proof.KRfl
import Verif.Proof.Quotient
/-!
C80: the arithmetic operators and JavaScript's.

In full the claim is that the five operators yield what they do in JavaScript, for all simple values.  The code does not
meet it for null and strings, for quotients of integers, for zero divisors and for integers of more than 53 bits.
-/
namespace JP
open Spec F64

variable (env : Env)

/-! ### C80 Arithmetic as in JavaScript -/

/-- Full statement, for operators and pairs of simple values of some kind. -/
def JsArithRule (K : Op → Simple → Simple → Prop) : Prop :=
  ∀ op ∈ [Op.add, .sub, .mul, .div, .mod], ∀ (a b : V) (x y z : Simple), simple? a = some x → simple? b = some y → K op x y →
    JsArith env op x y z → ∃ r, Yields2 env op a b r ∧ Shows r z

private theorem small_convert {n : Int} (h : Small n) : (ofInt n).Finite ∧ (ofInt n).val = n := (C24_convert n).2 h

private theorem limit_gt : (2 : ℚ) ^ 53 < limit := by
  have h1 : (2 : ℚ) ^ 970 * 2 ≤ 2 ^ 1024 := by
    rw [← pow_succ]
    exact pow_le_pow_right₀ (by norm_num) (by norm_num)
  have h2 : (2 : ℚ) ^ 53 < 2 ^ 970 := pow_lt_pow_right₀ (by norm_num) (by norm_num)
  unfold limit
  generalize (2 : ℚ) ^ 970 = a at *
  generalize (2 : ℚ) ^ 1024 = b at *
  generalize (2 : ℚ) ^ 53 = c at *
  linarith

private theorem rounds_small {n : Int} (h : Small n) {z : F64} (hz : Rounds n z) : z.Finite ∧ z.val = n := by
  have hn : |((n : ℤ) : ℚ)| ≤ 2 ^ 53 := by
    rw [← Int.cast_abs, Int.abs_eq_natAbs]
    exact_mod_cast h
  have hf : z.Finite := by
    have h1 : ¬ z.isInf = true := by
      rw [hz.overflow, not_le]
      exact lt_of_le_of_lt hn limit_gt
    have h2 := hz.not_nan
    simp only [isInf, isNaN, beq_iff_eq, decide_eq_false_iff_not, not_lt] at h1 h2
    unfold F64.Finite
    omega
  refine ⟨hf, ?_⟩
  obtain ⟨h1, h2⟩ := small_convert h
  have := hz.nearest hf _ h1
  rw [h2, sub_self, abs_zero, abs_nonpos_iff, sub_eq_zero] at this
  exact this

private theorem small_wrap {n : Int} (h : Small n) : ∃ m : Int64, wrap n = .int m ∧ m.toInt = n := by
  unfold Small at h
  exact C24_exact n (by omega) (by omega)

private theorem arith_of {v : V} {k : Simple} (h : simple? v = some k) (hk : (∃ n, k = .number n) ∨ ∃ c, k = .bool c) :
    arithmetic? v = some (toNumber env k) := by
  cases v <;> simp [simple?] at h <;> subst h <;> simp [arithmetic?, toNumber] at hk ⊢

private theorem whole_cases {x : Simple} {n : Int} (h : x.whole? = some n) :
    ((∃ n, x = .number n) ∨ ∃ c, x = .bool c) ∧ toNumber env x = .int n ∧ x.isString = false := by
  cases x with
  | bool b => simp [Simple.whole?] at h; subst h; exact ⟨.inr ⟨_, rfl⟩, rfl, rfl⟩
  | number m =>
    cases m with
    | int m => simp [Simple.whole?] at h; subst h; exact ⟨.inl ⟨_, rfl⟩, rfl, rfl⟩
    | float f => simp [Simple.whole?] at h
  | _ => simp [Simple.whole?] at h

private theorem neg_iff {x : F64} (h : x.val ≠ 0) : x.neg? = true ↔ x.val < 0 := by
  have h0 : 0 ≤ magVal x.mag := by rw [← abs_val]; exact abs_nonneg _
  cases hx : x.neg?
  · have e : x.val = magVal x.mag := by unfold val; rw [hx]; rfl
    rw [e] at h ⊢
    exact ⟨fun h => (by cases h), fun h' => absurd h' (not_lt.2 h0)⟩
  · have e : x.val = -magVal x.mag := by unfold val; rw [hx]; rfl
    rw [e] at h ⊢
    refine ⟨fun _ => ?_, fun _ => rfl⟩
    have : 0 < magVal x.mag := lt_of_le_of_ne h0 fun e => h (by rw [← e, neg_zero])
    linarith

private theorem tmod_unique {m n k r : Int} (h1 : r.natAbs < n.natAbs) (h2 : m = k * n + r) (h3 : 0 < r → 0 ≤ m) (h4 : r < 0 → m ≤ 0) :
    r = m.tmod n := by
  have e := Int.mul_tdiv_add_tmod m n
  have b : (m.tmod n).natAbs < n.natAbs := by
    rw [Int.natAbs_tmod]
    exact Nat.mod_lt _ (by omega)
  have p1 : 0 ≤ m → 0 ≤ m.tmod n := fun h => Int.tmod_nonneg _ h
  have p2 : m ≤ 0 → m.tmod n ≤ 0 := by
    intro h
    have := Int.tmod_nonneg n (a := -m) (by omega)
    rw [Int.neg_tmod] at this
    omega
  have d : n ∣ r - m.tmod n := ⟨m.tdiv n - k, by rw [Int.mul_sub, Int.mul_comm n k]; omega⟩
  have : (r - m.tmod n).natAbs < n.natAbs := by
    rcases Int.lt_trichotomy m 0 with h | h | h
    · have := p2 (le_of_lt h)
      have : r ≤ 0 := by by_contra hc; have := h3 (by omega); omega
      omega
    · have := p2 (le_of_eq h)
      have := p1 (le_of_eq h.symm)
      omega
    · have := p1 (le_of_lt h)
      have : 0 ≤ r := by by_contra hc; have := h4 (by omega); omega
      omega
  have := Int.eq_zero_of_dvd_of_natAbs_lt_natAbs d this
  omega

/-- It is true for integers and booleans when operands and result have at most 53 bits, a divisor is not zero, and a quotient is an integer. -/
theorem C80_integers_partial : JsArithRule env (fun op x y => ∃ m n, x.whole? = some m ∧ y.whole? = some n ∧ FitsInt op m n) := by
  intro op hop a b x y z hx hy ⟨m, n, hm, hn, hf⟩ hz
  obtain ⟨x1, x2, x3⟩ := whole_cases env hm
  obtain ⟨y1, y2, y3⟩ := whole_cases env hn
  have ha := arith_of env hx x1
  have hb := arith_of env hy y1
  rw [x2] at ha
  rw [y2] at hb
  cases hz with
  | concat _ _ s t h => rw [x3, y3] at h; cases h
  | add _ _ _ =>
    obtain ⟨f1, f2, f3⟩ := hf
    obtain ⟨r, h1, h2⟩ := small_wrap f3
    refine ⟨wrap (m + n), (C24_add env a b _).2 (by simp only [arithSpec, ha, hb, compute]), ?_⟩
    obtain ⟨a1, a2⟩ := small_convert f1
    obtain ⟨b1, b2⟩ := small_convert f2
    have hr := rounds_fadd a1 b1
    rw [a2, b2, ← Int.cast_add] at hr
    obtain ⟨z1, z2⟩ := rounds_small f3 hr
    rw [h1, x2, y2]
    exact .int _ _ z1 (by rw [h2]; exact z2)
  | sub _ _ =>
    obtain ⟨f1, f2, f3⟩ := hf
    obtain ⟨r, h1, h2⟩ := small_wrap f3
    refine ⟨wrap (m - n), (C24_sub env a b _).2 (by simp only [arithSpec, ha, hb, compute]), ?_⟩
    obtain ⟨a1, a2⟩ := small_convert f1
    obtain ⟨b1, b2⟩ := small_convert f2
    have hr := rounds_fsub a1 b1
    rw [a2, b2, ← Int.cast_sub] at hr
    obtain ⟨z1, z2⟩ := rounds_small f3 hr
    rw [h1, x2, y2]
    exact .int _ _ z1 (by rw [h2]; exact z2)
  | mul _ _ =>
    obtain ⟨f1, f2, f3⟩ := hf
    obtain ⟨r, h1, h2⟩ := small_wrap f3
    refine ⟨wrap (m * n), (C24_mul env a b _).2 (by simp only [arithSpec, ha, hb, compute]), ?_⟩
    obtain ⟨a1, a2⟩ := small_convert f1
    obtain ⟨b1, b2⟩ := small_convert f2
    have hr := (rounds_fmul a1 b1).1
    rw [a2, b2, ← Int.cast_mul] at hr
    obtain ⟨z1, z2⟩ := rounds_small f3 hr
    rw [h1, x2, y2]
    exact .int _ _ z1 (by rw [h2]; exact z2)
  | div _ _ =>
    obtain ⟨f1, f2, f3, k, rfl⟩ := hf
    have fk : Small k := by
      unfold Small at f1 ⊢
      rw [Int.natAbs_mul] at f1
      exact le_trans (Nat.le_mul_of_pos_left _ (by omega)) f1
    obtain ⟨r, h1, h2⟩ := small_wrap fk
    refine ⟨wrap k, (C24_div env a b _).2 ?_, ?_⟩
    · simp only [divSpec, ha, hb, compute, Number.isZero, beq_iff_eq, f3, if_false, Int.mul_tdiv_cancel_left _ f3]
    obtain ⟨a1, a2⟩ := small_convert f1
    obtain ⟨b1, b2⟩ := small_convert f2
    have hn0 : ((n : ℤ) : ℚ) ≠ 0 := by exact_mod_cast f3
    have hr := (rounds_fdiv a1 b1 (by
      intro h0
      rw [val, h0, magVal_zero] at b2
      simp at b2
      exact f3 (by exact_mod_cast b2.symm))).1
    rw [a2, b2, Int.cast_mul, mul_div_cancel_left₀ _ hn0] at hr
    obtain ⟨z1, z2⟩ := rounds_small fk hr
    rw [h1, x2, y2]
    exact .int _ _ z1 (by rw [h2]; exact z2)
  | mod _ _ =>
    obtain ⟨f1, f2, f3⟩ := hf
    obtain ⟨a1, a2⟩ := small_convert f1
    obtain ⟨b1, b2⟩ := small_convert f2
    have hm0 : (ofInt n).mag ≠ 0 := by
      intro h0
      rw [val, h0, magVal_zero] at b2
      simp at b2
      exact f3 (by exact_mod_cast b2.symm)
    obtain ⟨z1, z2, z3, k, z4⟩ := fmod_spec a1 b1 hm0
    rw [a2, b2] at z4
    rw [b2] at z3
    have z5 : (fmod (ofInt m) (ofInt n)).val = ((m - k * n : ℤ) : ℚ) := by push_cast; linarith
    have key : m - k * n = m.tmod n := by
      refine tmod_unique (k := k) ?_ (by omega) ?_ ?_
      · rw [z5, ← Int.cast_abs, ← Int.cast_abs] at z3
        have : |m - k * n| < |n| := by exact_mod_cast z3
        rw [Int.abs_eq_natAbs, Int.abs_eq_natAbs] at this
        exact_mod_cast this
      · intro hp
        by_contra hc
        have hv : (fmod (ofInt m) (ofInt n)).val ≠ 0 := by rw [z5]; exact_mod_cast hp.ne'
        have h1 := (neg_iff hv).not.2 (by rw [z5, not_lt]; exact_mod_cast hp.le)
        have hv' : (ofInt m).val < 0 := by rw [a2]; exact_mod_cast not_le.1 hc
        rw [z2] at h1
        exact h1 ((neg_iff hv'.ne).2 hv')
      · intro hp
        by_contra hc
        have hv : (fmod (ofInt m) (ofInt n)).val ≠ 0 := by rw [z5]; exact_mod_cast hp.ne
        have h1 := (neg_iff hv).2 (by rw [z5]; exact_mod_cast hp)
        have hv' : 0 < (ofInt m).val := by rw [a2]; exact_mod_cast not_le.1 hc
        rw [z2] at h1
        exact absurd ((neg_iff hv'.ne').1 h1) (not_lt.2 hv'.le)
    have fk : Small (m.tmod n) := by
      unfold Small at f2 ⊢
      rw [Int.natAbs_tmod]
      exact le_trans (Nat.le_of_lt (Nat.mod_lt _ (by omega))) f2
    obtain ⟨r, h1, h2⟩ := small_wrap fk
    refine ⟨wrap (m.tmod n), (C24_mod env a b _).2 ?_, ?_⟩
    · simp only [divSpec, ha, hb, compute, Number.isZero, beq_iff_eq, f3, if_false]
    rw [h1, x2, y2]
    exact .int _ _ z1 (by rw [h2, ← key]; exact z5)

example := C80_integers_partial Ex.env .mod (by simp) (.int (-7)) (.bool true) _ _ _ rfl rfl
  ⟨-7, 1, rfl, rfl, by unfold FitsInt Small; decide⟩ (.mod _ _)

/-- Of integers of at most 53 bits, with a divisor that is not zero, it is true of exactly the quotients that are integers. -/
theorem C80_quotient_exact {a b : V} {x y z : Simple} {m n : Int} (hx : simple? a = some x) (hy : simple? b = some y)
    (hm : x.whole? = some m) (hn : y.whole? = some n) (sm : Small m) (sn : Small n) (h0 : n ≠ 0) (hz : JsArith env .div x y z) :
    (∃ r, Yields2 env .div a b r ∧ Shows r z) ↔ n ∣ m := by
  constructor
  · rintro ⟨r, h1, h2⟩
    obtain ⟨x1, x2, x3⟩ := whole_cases env hm
    obtain ⟨y1, y2, y3⟩ := whole_cases env hn
    have ha := arith_of env hx x1
    have hb := arith_of env hy y1
    rw [x2] at ha
    rw [y2] at hb
    cases hz with
    | div _ _ =>
    rw [x2, y2] at h2
    rw [C24_div] at h1
    simp only [divSpec, ha, hb, compute, Number.isZero, beq_iff_eq, h0, if_false, wrap] at h1
    subst h1
    obtain ⟨a1, a2⟩ := small_convert sm
    obtain ⟨b1, b2⟩ := small_convert sn
    have hr := (rounds_fdiv a1 b1 (by
      intro h
      rw [val, h, magVal_zero] at b2
      simp at b2
      exact h0 (by exact_mod_cast b2.symm))).1
    rw [a2, b2] at hr
    cases h2 with
    | int _ _ f v => exact quotient_integral sm sn h0 hr f v
  · intro hd
    exact C80_integers_partial env .div (by simp) a b x y z hx hy ⟨m, n, hm, hn, sm, sn, h0, hd⟩ hz

example := C80_quotient_exact Ex.env (a := .int 9007199254740992) (b := .int 3) rfl rfl rfl rfl
  (by unfold Small; decide) (by unfold Small; decide) (by decide) (.div _ _)

/-- It is true when one of two numbers is a float, and a divisor is not zero. -/
theorem C80_floats_partial : JsArithRule env (FitsFloat env) := by
  intro op hop a b x y z hx hy ⟨hf, hd⟩ hz
  have hx' : (∃ n, x = .number n) ∨ ∃ c, x = .bool c := by
    rcases hf with ⟨⟨f, rfl⟩, -⟩ | ⟨h, -⟩
    · exact .inl ⟨_, rfl⟩
    · exact h
  have hy' : (∃ n, y = .number n) ∨ ∃ c, y = .bool c := by
    rcases hf with ⟨-, h⟩ | ⟨-, ⟨f, rfl⟩⟩
    · exact h
    · exact .inl ⟨_, rfl⟩
  have ha := arith_of env hx hx'
  have hb := arith_of env hy hy'
  have comp : ∀ intf floatf, compute intf floatf (toNumber env x) (toNumber env y) = .float (floatf (toNumber env x).toF64 (toNumber env y).toF64) := by
    intro intf floatf
    rcases hf with ⟨⟨f, rfl⟩, -⟩ | ⟨-, ⟨f, rfl⟩⟩
    · rfl
    · generalize toNumber env x = u
      cases u <;> rfl
  cases hz with
  | concat _ _ s t h =>
    rcases hx' with ⟨_, rfl⟩ | ⟨_, rfl⟩ <;> rcases hy' with ⟨_, rfl⟩ | ⟨_, rfl⟩ <;> cases h
  | add _ _ _ => exact ⟨_, (C24_add env a b _).2 (by simp only [arithSpec, ha, hb, comp]), .float _⟩
  | sub _ _ => exact ⟨_, (C24_sub env a b _).2 (by simp only [arithSpec, ha, hb, comp]), .float _⟩
  | mul _ _ => exact ⟨_, (C24_mul env a b _).2 (by simp only [arithSpec, ha, hb, comp]), .float _⟩
  | div _ _ => exact ⟨_, (C24_div env a b _).2 (by simp only [divSpec, ha, hb, comp, hd (.inl rfl), Bool.false_eq_true, if_false]), .float _⟩
  | mod _ _ => exact ⟨_, (C24_mod env a b _).2 (by simp only [divSpec, ha, hb, comp, hd (.inr rfl), Bool.false_eq_true, if_false]), .float _⟩

example := C80_floats_partial Ex.env .div (by simp) (.int 7) (.float .one) _ _ _ rfl rfl
  ⟨.inr ⟨.inl ⟨_, rfl⟩, ⟨_, rfl⟩⟩, fun _ => by decide⟩ (.div _ _)

/-- It is false for strings, which are not joined by `+`. -/
theorem C80_strings_fails : ¬ JsArithRule env (fun op x y => op = .add ∧ ∃ s t, x = .string s ∧ y = .string t) := by
  intro h
  obtain ⟨r, h1, h2⟩ := h .add (by simp) (.str (b! "a")) (.str (b! "b")) _ _ _ rfl rfl ⟨rfl, _, _, rfl, rfl⟩ (.concat _ _ _ _ rfl (.string _) (.string _))
  rw [C24_add] at h1
  subst h1
  cases h2

/-- It is false for null, which is not 0. -/
theorem C80_null_fails : ¬ JsArithRule env (fun _ x _ => x = .null) := by
  intro h
  obtain ⟨r, h1, h2⟩ := h .add (by simp) .null (.int 1) _ _ _ rfl rfl rfl (.add _ _ rfl)
  rw [C24_add] at h1
  subst h1
  cases h2

/-- It is false for quotients of integers: `7/2` is 3. -/
theorem C80_quotient_fails : ¬ JsArithRule env (fun op x y => op = .div ∧ ∃ m n, x = .number (.int m) ∧ y = .number (.int n) ∧ n ≠ 0) := by
  intro h
  obtain ⟨r, h1, h2⟩ := h .div (by simp) (.int 7) (.int 2) _ _ _ rfl rfl ⟨rfl, 7, 2, rfl, rfl, by decide⟩ (.div _ _)
  rw [C24_div] at h1
  have e : r = .int 3 := h1
  subst e
  cases h2 with
  | int _ _ _ h =>
    have h7 := small_convert (n := 7) (by unfold Small; decide)
    have h2 := small_convert (n := 2) (by unfold Small; decide)
    have : (fdiv (ofInt 7) (ofInt 2)).val = 7 / 2 := by
      have : fdiv (ofInt 7) (ofInt 2) = mk' false (0x400C000000000000) := by krfl
      rw [this]
      unfold val
      rw [neg_mk', mag_mk']
      norm_num [magVal]
    have h' : (fdiv (ofInt 7) (ofInt 2)).val = ((3 : Int64).toInt : ℚ) := h
    rw [this, show (3 : Int64).toInt = 3 by decide] at h'
    norm_num at h'

/-- It is false for a zero divisor, where JavaScript has an infinity or NaN. -/
theorem C80_zero_fails : ¬ JsArithRule env (fun op _ y => op = .div ∧ y = .number (.int 0)) := by
  intro h
  obtain ⟨r, h1, h2⟩ := h .div (by simp) (.int 1) (.int 0) _ _ _ rfl rfl ⟨rfl, rfl⟩ (.div _ _)
  rw [C24_div] at h1
  have e : r = .nothing := h1
  subst e
  cases h2

/-- It is false for integers of more than 53 bits: the sum of 9007199254740992 and 1 is 9007199254740993. -/
theorem C80_large_fails : ¬ JsArithRule env (fun op x y => op = .add ∧ ∃ m n, x = .number (.int m) ∧ y = .number (.int n)) := by
  intro h
  obtain ⟨r, h1, h2⟩ := h .add (by simp) (.int 9007199254740992) (.int 1) _ _ _ rfl rfl ⟨rfl, _, _, rfl, rfl⟩ (.add _ _ rfl)
  rw [C24_add] at h1
  have e : r = .int 9007199254740993 := h1
  subst e
  cases h2 with
  | int _ _ _ h =>
    have : fadd (ofInt 9007199254740992) (ofInt 1) = ofInt 9007199254740992 := by krfl
    have h' : (fadd (ofInt 9007199254740992) (ofInt 1)).val = ((9007199254740993 : Int64).toInt : ℚ) := h
    rw [this, (small_convert (n := 9007199254740992) (by unfold Small; decide)).2] at h'
    have e : (9007199254740993 : Int64).toInt = 9007199254740993 := by decide
    rw [e] at h'
    norm_num at h'

end JP
