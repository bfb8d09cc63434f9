import Verif.Props.Operands
import Verif.Proof.Total
/-!
C76: the laws of arithmetic.
-/
namespace JP
open Spec F64

variable (env : Env)

private theorem fadd_comm (x y : F64) : fadd x y = fadd y x := by
  unfold fadd
  by_cases h1 : x.isNaN = true
  · simp [h1]
  by_cases h2 : y.isNaN = true
  · simp [h2]
  simp only [h1, h2, Bool.or_self, Bool.false_eq_true, if_false]
  by_cases h3 : x.isInf = true <;> by_cases h4 : y.isInf = true
  · simp only [h3, h4, if_true, Bool.true_and]
    by_cases h5 : x.neg? = y.neg?
    · have : x = y := ext_mag h5 (by simp [isInf] at h3 h4; omega)
      subst this; rfl
    · rw [if_pos (by simpa using h5), if_pos (by simpa using fun e => h5 e.symm)]
  · simp [h3, h4]
  · simp [h3, h4]
  · simp only [h3, h4, Bool.false_eq_true, if_false]
    rw [Bool.and_comm, min_comm, add_comm]

private theorem fmul_comm (x y : F64) : fmul x y = fmul y x := by
  unfold fmul
  have e : (x.neg? != y.neg?) = (y.neg? != x.neg?) := by cases x.neg? <;> cases y.neg? <;> rfl
  simp only [e, Bool.or_comm x.isNaN, Bool.or_comm x.isInf, Bool.or_comm (decide (x.mag = 0)), mul_comm x.man, add_comm x.expo]

/-- `+` and `*` are commutative, whatever the values. -/
theorem C76_commutative (op : Op) (hop : op = .add ∨ op = .mul) (a b r : V) : Yields2 env op a b r ↔ Yields2 env op b a r := by
  have key : ∀ (f : Int → Int → Int) (g : F64 → F64 → F64), (∀ m n, f m n = f n m) → (∀ x y, g x y = g y x) →
      arithSpec f g a b = arithSpec f g b a := by
    intro f g hf hg
    unfold arithSpec
    cases arithmetic? a with
    | none => cases arithmetic? b <;> rfl
    | some x =>
      cases arithmetic? b with
      | none => rfl
      | some y => cases x <;> cases y <;> simp only [compute] <;> first | rw [hf] | rw [hg]
  rcases hop with rfl | rfl
  · rw [C24_add, C24_add, key _ _ Int.add_comm fadd_comm]
  · rw [C24_mul, C24_mul, key _ _ Int.mul_comm fmul_comm]

example := C76_commutative Ex.env .add (.inl rfl) (.str (b! "a")) (.int 1)

/-- Full statement: associativity of `+` and `*`. -/
def AssociativeRule : Prop :=
  ∀ op : Op, op = .add ∨ op = .mul → ∀ a b c ab bc r, (arithmetic? a).isSome → (arithmetic? b).isSome → (arithmetic? c).isSome →
    Yields2 env op a b ab → Yields2 env op b c bc → Yields2 env op ab c r → Yields2 env op a bc r

/-- It is false of floats, where the results are rounded: (0.1 + 0.2) + 0.3 and 0.1 + (0.2 + 0.3) differ. -/
theorem C76_associative_fails : ¬ AssociativeRule env := by
  intro h
  have h1 := h .add (.inl rfl) (.float ⟨0x3FB999999999999A⟩) (.float ⟨0x3FC999999999999A⟩) (.float ⟨0x3FD3333333333333⟩)
    (.float ⟨0x3FD3333333333334⟩) (.float ⟨0x3FE0000000000000⟩) (.float ⟨0x3FE3333333333334⟩) rfl rfl rfl
    ((yields2_ok rfl).2 (by krfl)) ((yields2_ok rfl).2 (by krfl)) ((yields2_ok rfl).2 (by krfl))
  have h2 := (yields2_ok (op := .add) rfl).1 h1
  have h3 : arith env (.float ⟨0x3FB999999999999A⟩) (.float ⟨0x3FE0000000000000⟩) (· + ·) F64.fadd = .float ⟨0x3FE3333333333333⟩ := by krfl
  rw [h3] at h2
  injection h2 with h2
  exact absurd h2 (by decide)

/-- A whole number: an integer, or a boolean as 0 or 1. -/
def Whole (v : V) (n : Int) : Prop := arithmetic? v = some (.int n)

private theorem whole_wrap (n : Int) : Whole (wrap n) (Int64.ofInt n).toInt := rfl

private theorem compute_whole {a b : V} {m n : Int} (ha : Whole a m) (hb : Whole b n) (f : Int → Int → Int) (g : F64 → F64 → F64) :
    arithSpec f g a b = wrap (f m n) := by
  unfold arithSpec
  rw [ha, hb]
  rfl

/-- On whole numbers both are associative, whether or not the results wrap around. -/
theorem C76_associative_partial (op : Op) (hop : op = .add ∨ op = .mul) (a b c ab bc r : V) (l m n : Int) (ha : Whole a l) (hb : Whole b m)
    (hc : Whole c n) (h1 : Yields2 env op a b ab) (h2 : Yields2 env op b c bc) (h3 : Yields2 env op ab c r) : Yields2 env op a bc r := by
  rcases hop with rfl | rfl
  · rw [C24_add, compute_whole ha hb] at h1
    rw [C24_add, compute_whole hb hc] at h2
    subst h1; subst h2
    rw [C24_add, compute_whole (whole_wrap _) hc] at h3
    rw [C24_add, compute_whole ha (whole_wrap _), h3]
    simp only [wrap, Int64.ofInt_add, Int64.ofInt_toInt, Int64.add_assoc]
  · rw [C24_mul, compute_whole ha hb] at h1
    rw [C24_mul, compute_whole hb hc] at h2
    subst h1; subst h2
    rw [C24_mul, compute_whole (whole_wrap _) hc] at h3
    rw [C24_mul, compute_whole ha (whole_wrap _), h3]
    simp only [wrap, Int64.ofInt_mul, Int64.ofInt_toInt, Int64.mul_assoc]

example := C76_associative_partial Ex.env .mul (.inr rfl) (.int 3) (.int 4) (.bool true) (.int 12) (.int 4) (.int 12) 3 4 1 rfl rfl rfl
  ((yields2_ok rfl).2 (by krfl)) ((yields2_ok rfl).2 (by krfl)) ((yields2_ok rfl).2 (by krfl))

/-- Full statement: `*` distributes over `+`. -/
def DistributiveRule : Prop :=
  ∀ a b c bc ab ac r, (arithmetic? a).isSome → (arithmetic? b).isSome → (arithmetic? c).isSome →
    Yields2 env .add b c bc → Yields2 env .mul a b ab → Yields2 env .mul a c ac → Yields2 env .add ab ac r → Yields2 env .mul a bc r

/-- It is false of floats: 10 * (0.1 + 0.2) and 10 * 0.1 + 10 * 0.2 differ (3.0000000000000004 and 3). -/
theorem C76_distributive_fails : ¬ DistributiveRule env := by
  intro h
  have h1 := h (.int 10) (.float ⟨0x3FB999999999999A⟩) (.float ⟨0x3FC999999999999A⟩) (.float ⟨0x3FD3333333333334⟩)
    (.float ⟨0x3FF0000000000000⟩) (.float ⟨0x4000000000000000⟩) (.float ⟨0x4008000000000000⟩) rfl rfl rfl
    ((yields2_ok rfl).2 (by krfl)) ((yields2_ok rfl).2 (by krfl)) ((yields2_ok rfl).2 (by krfl)) ((yields2_ok rfl).2 (by krfl))
  have h2 := (yields2_ok (op := .mul) rfl).1 h1
  have h3 : arith env (.int 10) (.float ⟨0x3FD3333333333334⟩) (· * ·) F64.fmul = .float ⟨0x4008000000000001⟩ := by krfl
  rw [h3] at h2
  injection h2 with h2
  exact absurd h2 (by decide)

/-- On whole numbers it does. -/
theorem C76_distributive_partial (a b c bc ab ac r : V) (l m n : Int) (ha : Whole a l) (hb : Whole b m) (hc : Whole c n)
    (h1 : Yields2 env .add b c bc) (h2 : Yields2 env .mul a b ab) (h3 : Yields2 env .mul a c ac) (h4 : Yields2 env .add ab ac r) :
    Yields2 env .mul a bc r := by
  rw [C24_add, compute_whole hb hc] at h1
  rw [C24_mul, compute_whole ha hb] at h2
  rw [C24_mul, compute_whole ha hc] at h3
  subst h1; subst h2; subst h3
  rw [C24_add, compute_whole (whole_wrap _) (whole_wrap _)] at h4
  rw [C24_mul, compute_whole ha (whole_wrap _), h4]
  simp only [wrap, Int64.ofInt_add, Int64.ofInt_mul, Int64.ofInt_toInt, Int64.mul_add]

example := C76_distributive_partial Ex.env (.int 3) (.int 4) (.int 5) (.int 9) (.int 12) (.int 15) (.int 27) 3 4 5 rfl rfl rfl
  ((yields2_ok rfl).2 (by krfl)) ((yields2_ok rfl).2 (by krfl)) ((yields2_ok rfl).2 (by krfl)) ((yields2_ok rfl).2 (by krfl))

/-- Full statement: to subtract is to add the negation. -/
def SubtractRule : Prop :=
  ∀ a b nb r, (arithmetic? a).isSome → (arithmetic? b).isSome → Yields1 env .neg b nb → (Yields2 env .sub a b r ↔ Yields2 env .add a nb r)

/-- It is false when the least integer, which is its own negation, is taken from a float: with b = -2^63,
2.0^63 - b is 2.0^64 but 2.0^63 + -b is 0. -/
theorem C76_subtract_fails : ¬ SubtractRule env := by
  intro h
  have h1 := (h (.float ⟨0x43E0000000000000⟩) (.int Int64.minValue) (.int Int64.minValue) (.float ⟨0x43F0000000000000⟩) rfl rfl
    ((yields1_iff rfl).2 (by krfl))).1 ((yields2_ok rfl).2 (by krfl))
  have h2 := (yields2_ok (op := .add) rfl).1 h1
  have h3 : arith env (.float ⟨0x43E0000000000000⟩) (.int Int64.minValue) (· + ·) F64.fadd = .float .zero := by krfl
  rw [h3] at h2
  injection h2 with h2
  exact absurd h2 (by decide)

/-- It holds of two whole numbers, and whenever a float is subtracted. -/
theorem C76_subtract_partial (a b nb r : V) (h : ((∃ m, Whole a m) ∧ ∃ n, Whole b n) ∨ ((arithmetic? a).isSome ∧ ∃ f, b = .float f))
    (hn : Yields1 env .neg b nb) : Yields2 env .sub a b r ↔ Yields2 env .add a nb r := by
  have hb : (arithmetic? b).isSome := by
    rcases h with ⟨-, n, hb⟩ | ⟨-, f, rfl⟩
    · rw [hb]; rfl
    · rfl
  have e : nb = negated b := by
    have h1 := (yields1_iff rfl).1 hn
    have h2 := (yields1_iff rfl).1 (C52_neg_partial env b (.inl hb))
    rw [h1, h2]
  subst e
  rw [C24_sub, C24_add]
  rcases h with ⟨⟨m, ha⟩, n, hb'⟩ | ⟨ha, f, rfl⟩
  · have hw : Whole (negated b) (Int64.ofInt (-n)).toInt := by
      unfold negated; rw [hb']; rfl
    rw [compute_whole ha hb', compute_whole ha hw]
    simp only [wrap, Int64.ofInt_add, Int64.ofInt_sub, Int64.ofInt_toInt, Int64.ofInt_neg, Int64.sub_eq_add_neg]
  · have : arithSpec (· - ·) F64.fsub a (.float f) = arithSpec (· + ·) F64.fadd a (negated (.float f)) := by
      have key : ∀ x : F64, fsub x f = fadd x f.fneg := by
        intro x
        unfold fsub
        by_cases hf : f.isNaN = true
        · rw [if_pos hf]; unfold fadd; rw [isNaN_fneg, hf]; simp
        · rw [if_neg hf]
      unfold arithSpec negated
      cases hx : arithmetic? a with
      | none => rw [hx] at ha
      | some x => cases x <;> simp [arithmetic?, compute, key, Number.toF64]
    rw [this]

example := C76_subtract_partial Ex.env (.int 3) (.float .one) _ (.float (.ofInt 2)) (.inr ⟨rfl, _, rfl⟩) ((yields1_iff rfl).2 rfl)

/-- Quotient and remainder of whole numbers fit together, whether or not they wrap around: `a / b * b + a % b` is `a`. -/
theorem C76_division (a b q p m : V) (k n : Int) (ha : Whole a k) (hb : Whole b n) (h0 : n ≠ 0)
    (h1 : Yields2 env .div a b q) (h2 : Yields2 env .mul q b p) (h3 : Yields2 env .mod a b m) :
    Yields2 env .add p m (wrap k) := by
  have hz : Number.isZero (.int n) = false := by simp [Number.isZero, h0]
  have hd : ∀ (f : Int → Int → Int) (g : F64 → F64 → F64), divSpec f g a b = wrap (f k n) := by
    intro f g
    unfold divSpec
    rw [ha, hb]
    simp only [hz]
    rfl
  rw [C24_div, hd] at h1
  rw [C24_mod, hd] at h3
  subst h1; subst h3
  rw [C24_mul, compute_whole (whole_wrap _) hb] at h2
  subst h2
  rw [C24_add, compute_whole (whole_wrap _) (whole_wrap _)]
  simp only [wrap, Int64.ofInt_add, Int64.ofInt_mul, Int64.ofInt_toInt]
  rw [← Int64.ofInt_mul, ← Int64.ofInt_add, mul_comm, Int.mul_tdiv_add_tmod]

example := C76_division Ex.env (.int (-7)) (.int 2) (.int (-3)) (.int (-6)) (.int (-1)) (-7) 2 (by unfold Whole; krfl) rfl (by decide)
  ((yields2_ok rfl).2 (by krfl)) ((yields2_ok rfl).2 (by krfl)) ((yields2_ok rfl).2 (by krfl))

/-- The remainder is smaller than the divisor and has the sign of the dividend. -/
theorem C76_remainder (a b m : V) (k n : Int) (ha : Whole a k) (hb : Whole b n) (h0 : n ≠ 0) (h : Yields2 env .mod a b m) :
    ∃ r : Int, Whole m r ∧ r.natAbs < n.natAbs ∧ (0 ≤ k → 0 ≤ r) ∧ (k ≤ 0 → r ≤ 0) := by
  have hz : Number.isZero (.int n) = false := by simp [Number.isZero, h0]
  have hd : divSpec Int.tmod F64.fmod a b = wrap (Int.tmod k n) := by
    unfold divSpec
    rw [ha, hb]
    simp only [hz]
    rfl
  rw [C24_mod, hd] at h
  subst h
  have hn : n.natAbs ≤ 2 ^ 63 := by
    have key : ∀ m : Int64, m.toInt.natAbs ≤ 2 ^ 63 := by
      intro m
      have h1 := Int64.toInt_lt m
      have h2 := Int64.le_toInt m
      omega
    unfold Whole at hb
    cases b <;> simp [arithmetic?] at hb
    · rename_i b; cases b <;> simp [boolToNumber] at hb <;> subst hb <;> decide
    all_goals subst hb; exact key _
  have hlt : (k.tmod n).natAbs < n.natAbs := by
    rw [Int.natAbs_tmod]; exact Nat.mod_lt _ (by omega)
  have he : (Int64.ofInt (k.tmod n)).toInt = k.tmod n := by
    rw [Int64.toInt_ofInt, Int.bmod_def, show ((Int64.size : Nat) : Int) = 2 ^ 64 from rfl]
    omega
  refine ⟨_, whole_wrap _, ?_, ?_, ?_⟩
  · rw [he]; exact hlt
  · rw [he]; intro hk; exact Int.tmod_nonneg n hk
  · rw [he]; intro hk
    have := Int.tmod_nonneg n (a := -k) (by omega)
    rw [Int.neg_tmod] at this
    omega

example := C76_remainder Ex.env (.int (-7)) (.int 2) (.int (-1)) (-7) 2 (by unfold Whole; krfl) rfl (by decide) ((yields2_ok rfl).2 (by krfl))

end JP
