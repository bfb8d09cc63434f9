import Verif.Spec.Real
import Verif.Proof.Number
import Verif.Proof.Round
import Verif.Proof.Lexical
import Verif.Spec.Js
/-! Reading decimal numbers. -/
namespace JP
open Spec F64

variable {env : Env}

theorem digitsNat_eq (ds : Bytes) : digitsNat ds = decimal ds := by
  unfold digitsNat decimal
  congr 1
  funext n c
  rw [Nat.mul_comm]

theorem digit_lt {c : UInt8} (h : Digit c) : c.toNat - 48 < 10 := by
  obtain ⟨h1, h2⟩ := h
  have := UInt8.le_iff_toNat_le.1 h2
  have e : (c! '9' : UInt8).toNat = 57 := rfl
  omega

theorem decimal_lt : ∀ {ds : Bytes}, All Digit ds → decimal ds < 10 ^ ds.length := by
  have key : ∀ (ds : Bytes) (n k : Nat), All Digit ds → n < 10 ^ k →
      ds.foldl (fun n d => 10 * n + (d.toNat - 48)) n < 10 ^ (k + ds.length) := by
    intro ds
    induction ds with
    | nil => intro n k _ h; simpa using h
    | cons c ds ih =>
      intro n k h hn
      have hc := digit_lt (h c (by simp))
      have := ih (10 * n + (c.toNat - 48)) (k + 1) (fun c hc => h c (by simp [hc])) (by rw [pow_succ]; omega)
      rw [List.foldl_cons, List.length_cons, show k + (ds.length + 1) = k + 1 + ds.length by omega]
      exact this
  intro ds h
  have := key ds 0 0 h (by norm_num)
  rwa [Nat.zero_add] at this

/-- The exponent that is read: the exponent, if it has at most five digits. -/
theorem digitsExp_spec (ds : Bytes) :
    (decimal ds < 100000 → digitsExp ds = decimal ds) ∧ (100000 ≤ decimal ds → 10000 ≤ digitsExp ds) := by
  have key : ∀ (ds : Bytes) (a b : Nat), (a = b ∨ (10000 ≤ a ∧ 100000 ≤ b)) →
      let a' := ds.foldl (fun e c => if e < 10000 then e * 10 + (c.toNat - 48) else e) a
      let b' := ds.foldl (fun n d => 10 * n + (d.toNat - 48)) b
      a' = b' ∨ (10000 ≤ a' ∧ 100000 ≤ b') := by
    intro ds
    induction ds with
    | nil => intro a b h; exact h
    | cons c ds ih =>
      intro a b h
      simp only [List.foldl_cons]
      refine ih _ _ ?_
      split <;> omega
  have := key ds 0 0 (.inl rfl)
  unfold digitsExp decimal
  simp only at this
  omega

theorem span_digits {a b : Bytes} (h : All Digit a) (hb : Spec.Stops Digit b) :
    (a ++ b).takeWhile isDigit = a ∧ (a ++ b).dropWhile isDigit = b := by
  induction a with
  | nil =>
    cases b with
    | nil => exact ⟨rfl, rfl⟩
    | cons c b =>
      have : isDigit c = false := by
        cases hc : isDigit c
        · rfl
        · exact absurd (isDigit_iff.1 hc) (hb c rfl)
      simp [this]
  | cons c a ih =>
    have hc : isDigit c = true := isDigit_iff.2 (h c (by simp))
    obtain ⟨h1, h2⟩ := ih fun c hc => h c (by simp [hc])
    simp [hc, h1, h2]

/-- The exponent that is read for one that is written. -/
def Cap (e c : ℤ) : Prop := (e.natAbs < 100000 → c = e) ∧ (100000 ≤ e → 10000 ≤ c) ∧ (e ≤ -100000 → c ≤ -10000)

theorem all_digits {ds : Bytes} (h : Digits ds) : (ds.isEmpty || !ds.all isDigit) = false := by
  have h1 : ds.isEmpty = false := by
    cases ds with
    | nil => exact absurd rfl h.1
    | cons => rfl
  have h2 : ds.all isDigit = true := List.all_eq_true.2 fun c hc => isDigit_iff.2 (h.2 c hc)
  rw [h1, h2]; rfl

theorem signed_digits {ds : Bytes} (h : Digits ds) : signed ds = (false, ds) := by
  cases ds with
  | nil => exact absurd rfl h.1
  | cons c ds => exact signed_digit (isDigit_iff.2 (h.2 c (by simp)))

theorem exponent_spec {ex : Bytes} {e : ℤ} (h : Exp ex e) : Spec.Stops Digit ex ∧ ∃ c, exponent? ex = some c ∧ Cap e c := by
  have stop : ∀ {c : UInt8} {r : Bytes}, c = c! 'e' ∨ c = c! 'E' → Spec.Stops Digit (c :: r) := by
    intro c r hc d hd
    simp at hd
    subst hd
    rcases hc with rfl | rfl <;> simp [Digit]
  have isE : ∀ {c : UInt8}, c = c! 'e' ∨ c = c! 'E' → (c == c! 'e' || c == c! 'E') = true := by
    rintro c (rfl | rfl) <;> rfl
  cases h with
  | none => exact ⟨fun d hd => by simp at hd, 0, rfl, by unfold Cap; omega⟩
  | pos c sign ds hc hs hd =>
    refine ⟨stop hc, digitsExp ds, ?_, ?_⟩
    · have : signed (sign ++ ds) = (false, ds) := by
        rcases hs with rfl | rfl
        · exact signed_digits hd
        · rfl
      simp only [exponent?, isE hc, if_true, this, all_digits hd, Bool.false_eq_true, if_false]
    · have := digitsExp_spec ds
      unfold Cap
      omega
  | neg c ds hc hd =>
    refine ⟨stop hc, -(digitsExp ds : ℤ), ?_, ?_⟩
    · have : signed (c! '-' :: ds) = (true, ds) := rfl
      simp only [exponent?, isE hc, if_true, this, all_digits hd, Bool.false_eq_true, if_false]
    · have := digitsExp_spec ds
      unfold Cap
      omega

/-- What `decimal?` makes of a number text. -/
theorem figures_cons {c : UInt8} {v : Bytes} (h : c = c! '+' ∨ c = c! '-') : figures (c :: v) = figures v := by
  rcases h with rfl | rfl <;> rfl

theorem figures_digits {ds v : Bytes} (h : All Digit ds) : figures (ds ++ v) = ds.length + figures v := by
  induction ds with
  | nil => simp
  | cons d ds ih =>
    have hd : c! '0' ≤ d ∧ d ≤ c! '9' := h d (by simp)
    have h1 : (d != c! 'e' && d != c! 'E') = true := by
      have := hd.2
      simp only [Bool.and_eq_true, bne_iff_ne]
      constructor <;> (rintro rfl; exact absurd this (by decide))
    have ih := ih (fun c hc => h c (by simp [hc]))
    unfold figures at ih ⊢
    rw [List.cons_append, List.takeWhile_cons, if_pos h1, List.countP_cons, ih, if_pos (by simp [hd])]
    simp only [List.length_cons]
    omega

theorem figures_exp {ex : Bytes} {e : ℤ} (h : Exp ex e) : figures ex = 0 := by
  cases h with
  | none => rfl
  | pos c sign ds hc => rcases hc with rfl | rfl <;> rfl
  | neg c ds hc => rcases hc with rfl | rfl <;> rfl

theorem figures_point {v : Bytes} : figures (c! '.' :: v) = figures v := rfl

theorem decimal_spec {w : Bytes} {q : ℚ} {e : ℤ} (h : Unsigned w q e) :
    ∃ (m k : Nat) (c : ℤ), decimal? w = some (m, c - k) ∧ Cap e c ∧ q = m / 10 ^ k * 10 ^ e ∧ k ≤ figures w ∧ m < 10 ^ figures w := by
  cases h with
  | whole ds ex e hd he =>
    obtain ⟨h1, c, h2, h3⟩ := exponent_spec he
    refine ⟨decimal ds, 0, c, ?_, h3, by simp, by simp, ?_⟩
    · obtain ⟨s1, s2⟩ := span_digits hd.2 h1
      unfold decimal?
      rw [s1, s2]
      have hne : ds.isEmpty = false := by
        cases ds with
        | nil => exact absurd rfl hd.1
        | cons => rfl
      cases he with
      | none => simp [hne, h2, digitsNat_eq]
      | pos c sign ds hc => rcases hc with rfl | rfl <;> simp [hne, h2, digitsNat_eq]
      | neg c ds hc => rcases hc with rfl | rfl <;> simp [hne, h2, digitsNat_eq]
    · refine lt_of_lt_of_le (decimal_lt hd.2) (Nat.pow_le_pow_right (by norm_num) (by rw [figures_digits hd.2]; omega))
  | point ds fs ex e hd hf hne he =>
    obtain ⟨h1, c, h2, h3⟩ := exponent_spec he
    have hfig : figures (ds ++ c! '.' :: (fs ++ ex)) = ds.length + fs.length := by
      rw [figures_digits hd, figures_point, figures_digits hf, figures_exp he]; rfl
    refine ⟨decimal (ds ++ fs), fs.length, c, ?_, h3, rfl, by rw [hfig]; omega, ?_⟩
    · obtain ⟨s1, s2⟩ := span_digits (b := c! '.' :: (fs ++ ex)) hd (by
        intro d hd; simp at hd; subst hd; simp [Digit])
      obtain ⟨s3, s4⟩ := span_digits hf h1
      unfold decimal?
      rw [s1, s2]
      have hne' : (ds.isEmpty && fs.isEmpty) = false := by
        cases ds with
        | nil => cases fs with
          | nil => exact absurd rfl hne
          | cons => rfl
        | cons => rfl
      simp only [s3, s4, hne', Bool.false_eq_true, if_false, h2, digitsNat_eq]
    · refine lt_of_lt_of_le (decimal_lt (ds := ds ++ fs) ?_) (Nat.pow_le_pow_right (by norm_num) (by rw [hfig]; simp))
      intro c hc
      rcases List.mem_append.1 hc with hc | hc
      · exact hd c hc
      · exact hf c hc

/-! ### Rounding -/

/-- The signed number. -/
def sgn (neg : Bool) (q : ℚ) : ℚ := if neg then -q else q

theorem abs_sgn (neg : Bool) {q : ℚ} (h : 0 ≤ q) : |sgn neg q| = q := by
  unfold sgn; split
  · rw [abs_neg, abs_of_nonneg h]
  · exact abs_of_nonneg h

theorem finite_of {x : F64} (h1 : x.isNaN = false) (h2 : x.isInf = false) : x.Finite := by
  unfold F64.Finite
  simp only [isNaN, isInf, decide_eq_false_iff_not, beq_eq_false_iff_ne] at h1 h2
  omega

/-- The result for a number: an error from `limit` on, otherwise the nearest float. -/
def ReadsAs (r : Option F64) (neg : Bool) (q : ℚ) : Prop :=
  (limit ≤ q → r = none) ∧ (q < limit → ∃ f, r = some f ∧ f.Finite ∧ Rounds (sgn neg q) f ∧ f.neg? = neg)

theorem ofDecimal_reads (neg : Bool) (m : Nat) (e : ℤ) : ReadsAs (ofDecimal neg m e) neg (m * 10 ^ e) := by
  have key : ∀ (n d : Nat), 0 < d → (n : ℚ) / d = m * 10 ^ e →
      ReadsAs (if (F64.round neg n d).isInf then none else some (F64.round neg n d)) neg (m * 10 ^ e) := by
    intro n d hd hv
    obtain ⟨h1, h2⟩ := rounds_round neg n hd
    have hq : (if neg then -((n : ℚ) / d) else (n : ℚ) / d) = sgn neg (m * 10 ^ e) := by unfold sgn; rw [hv]
    rw [hq] at h1
    have hpos : (0 : ℚ) ≤ m * 10 ^ e := by positivity
    have ho := h1.overflow
    rw [abs_sgn neg hpos] at ho
    constructor
    · intro hl
      rw [if_pos (ho.2 hl)]
    · intro hl
      have hi : (F64.round neg n d).isInf = false := by
        cases hi : (F64.round neg n d).isInf
        · rfl
        · exact absurd (ho.1 hi) (not_le.2 hl)
      refine ⟨_, by rw [hi]; rfl, finite_of h1.not_nan hi, h1, h2⟩
  unfold ofDecimal
  dsimp only
  by_cases he : 0 ≤ e
  · simp only [if_pos he]
    refine key _ _ one_pos ?_
    obtain ⟨k, rfl⟩ := Int.eq_ofNat_of_zero_le he
    simp
  · simp only [if_neg he]
    refine key _ _ (by positivity) ?_
    obtain ⟨k, hk⟩ := Int.eq_ofNat_of_zero_le (show 0 ≤ -e by omega)
    have : e = -(k : ℤ) := by omega
    subst this
    simp [zpow_neg, div_eq_mul_inv]

theorem limit_le {q : ℚ} (h : 10 ^ 1000 ≤ q) : limit ≤ q := by
  refine le_trans ?_ h
  have h1 : limit ≤ 2 ^ 1024 := by
    unfold limit
    exact sub_le_self _ (by positivity)
  refine le_trans h1 (le_trans (pow_le_pow_right₀ (by norm_num) (show 1024 ≤ 3 * 1000 by norm_num)) ?_)
  rw [pow_mul]
  exact pow_le_pow_left₀ (by norm_num) (by norm_num) _

theorem tiny_lt : ((10 : ℚ) ^ 1000)⁻¹ < 2 ^ (-1075 : ℤ) := by
  rw [zpow_neg, inv_lt_inv₀ (by positivity) (by positivity)]
  have h1 : (2 : ℚ) ^ (1075 : ℤ) = 2 ^ 1075 := zpow_natCast 2 1075
  rw [h1]
  refine lt_of_lt_of_le (pow_lt_pow_right₀ (by norm_num) (show 1075 < 3 * 1000 by norm_num)) ?_
  rw [pow_mul]
  exact pow_le_pow_left₀ (by norm_num) (by norm_num) _

theorem limit_le' {q : ℚ} (h : 10 ^ 324 ≤ q) : limit ≤ q := by
  refine le_trans ?_ h
  have h1 : limit ≤ 2 ^ 1024 := by
    unfold limit
    exact sub_le_self _ (by positivity)
  exact le_trans h1 (by exact_mod_cast (by decide +kernel : (2 : Nat) ^ 1024 ≤ 10 ^ 324))

theorem tiny_lt' : ((10 : ℚ) ^ 324)⁻¹ < 2 ^ (-1075 : ℤ) := by
  rw [zpow_neg, inv_lt_inv₀ (by positivity) (by positivity)]
  have h1 : (2 : ℚ) ^ (1075 : ℤ) = 2 ^ 1075 := zpow_natCast 2 1075
  rw [h1]
  exact_mod_cast (by decide +kernel : (2 : Nat) ^ 1075 < 10 ^ 324)

/-- A number that is too small becomes zero. -/
theorem rounds_tiny (neg : Bool) {q : ℚ} (h0 : 0 < q) (hq : q < 2 ^ (-1075 : ℤ)) : Rounds (sgn neg q) (mk' neg 0) := by
  have hm : (0 : Nat) < infMag := by decide
  have hv : (mk' neg 0).val = 0 := by rw [val_mk' hm, magVal_zero]; simp
  have hmag : (mk' neg 0).mag = 0 := finite_mk' hm
  have hmin : magVal 1 = 2 * 2 ^ (-1075 : ℤ) := by
    unfold magVal
    rw [if_pos (by norm_num), Nat.cast_one, one_mul, show (-1074 : ℤ) = -1075 + 1 by norm_num, zpow_add_one₀ (by norm_num)]
    ring
  have far : ∀ y : F64, y.mag ≠ 0 → q < |y.val - sgn neg q| := by
    intro y hy
    have h1 : magVal 1 ≤ |y.val| := by rw [abs_val]; exact magVal_mono.monotone (by omega)
    have h2 := abs_sub_abs_le_abs_sub y.val (sgn neg q)
    rw [abs_sgn neg h0.le] at h2
    rw [hmin] at h1
    linarith
  have near : ∀ y : F64, y.mag = 0 → y.val = 0 := by
    intro y hy; unfold val; rw [hy, magVal_zero]; simp
  constructor
  · simp [isNaN, hmag]
  · rw [abs_sgn neg h0.le]
    constructor
    · intro h
      simp only [isInf, hmag] at h
      exact absurd h (by decide)
    · intro h
      have : q < limit := by
        refine lt_of_lt_of_le hq ?_
        have h1 : (2 : ℚ) ^ (-1075 : ℤ) ≤ 1 := zpow_le_one_of_nonpos₀ (by norm_num) (by norm_num)
        refine le_trans h1 ?_
        unfold limit
        rw [show (1024 : Nat) = 54 + 970 from rfl, pow_add]
        have : (1 : ℚ) ≤ 2 ^ 970 := one_le_pow₀ (by norm_num)
        generalize (2 : ℚ) ^ 970 = a at this
        norm_num
        linarith
      exact absurd h (not_le.2 this)
  · intro h
    rw [neg_mk']
    unfold sgn at h
    cases neg
    · simp at h; linarith
    · rfl
  · intro h
    rw [neg_mk']
    unfold sgn at h
    cases neg
    · rfl
    · simp at h; linarith
  · intro _ y _
    rw [hv, zero_sub, abs_neg, abs_sgn neg h0.le]
    by_cases hy : y.mag = 0
    · rw [near y hy, zero_sub, abs_neg, abs_sgn neg h0.le]
    · exact (far y hy).le
  · intro _ y _ _ _
    rw [hmag]

/-- Reading a number text. -/
theorem decimal_reads {w : Bytes} {q : ℚ} {e : ℤ} (h : Unsigned w q e) (hs : Sane w e) (neg : Bool) :
    ∃ m c, decimal? w = some (m, c) ∧ ReadsAs (ofDecimal neg m c) neg q ∧ 0 ≤ q := by
  obtain ⟨m, k, c, h1, h2, h3, h4, h5⟩ := decimal_spec h
  refine ⟨m, c - k, h1, ?_, by rw [h3]; positivity⟩
  have hr := ofDecimal_reads neg m (c - k)
  have hq : q = m * 10 ^ (e - k) := by
    rw [h3, zpow_sub₀ (by norm_num), zpow_natCast]
    ring
  by_cases hce : c = e
  · subst hce; rw [hq]; exact hr
  have hbig : 100000 ≤ e.natAbs := by
    by_contra h
    exact hce (h2.1 (by omega))
  have hlen : figures w ≤ 9676 := by
    rcases hs with hs | hs
    · omega
    · exact hs
  rcases Nat.eq_zero_or_pos m with rfl | hm
  · rw [hq]
    simp only [Nat.cast_zero, zero_mul] at hr ⊢
    exact hr
  have hm1 : (1 : ℚ) ≤ m := by exact_mod_cast hm
  have hm2 : (m : ℚ) < 10 ^ 9676 := by
    have : (m : ℚ) < 10 ^ figures w := by exact_mod_cast h5
    exact lt_of_lt_of_le this (pow_le_pow_right₀ (by norm_num) hlen)
  rcases lt_or_ge e 0 with he | he
  · -- far below
    have hc : c ≤ -10000 := h2.2.2 (by omega)
    have small : ∀ d : ℤ, d ≤ -10000 → 0 < (m : ℚ) * 10 ^ (d - k) ∧ (m : ℚ) * 10 ^ (d - k) < 2 ^ (-1075 : ℤ) := by
      intro d hd
      refine ⟨by positivity, lt_trans ?_ tiny_lt'⟩
      have h1 : (10 : ℚ) ^ (d - k) ≤ 10 ^ (-10000 : ℤ) := zpow_le_zpow_right₀ (by norm_num) (by omega)
      have h2 : (0 : ℚ) < 10 ^ (-10000 : ℤ) := by positivity
      have h3 : (m : ℚ) * 10 ^ (d - k) ≤ m * 10 ^ (-10000 : ℤ) := by
        exact mul_le_mul_of_nonneg_left h1 (by linarith)
      have h4 : (m : ℚ) * 10 ^ (-10000 : ℤ) < 10 ^ 9676 * 10 ^ (-10000 : ℤ) := mul_lt_mul_of_pos_right hm2 h2
      have h5 : (10 : ℚ) ^ 9676 * 10 ^ (-10000 : ℤ) = (10 ^ 324)⁻¹ := by
        rw [← zpow_natCast, ← zpow_natCast, ← zpow_neg, ← zpow_add₀ (by norm_num)]
        norm_num
      rw [h5] at h4
      exact lt_of_le_of_lt h3 h4
    obtain ⟨a1, a2⟩ := small c hc
    obtain ⟨b1, b2⟩ := small e (by omega)
    have hlim : (m : ℚ) * 10 ^ (c - k) < limit := by
      by_contra hge
      have := (rounds_tiny neg a1 a2).overflow
      rw [abs_sgn neg a1.le] at this
      have := this.2 (not_lt.1 hge)
      revert this
      simp only [isInf, finite_mk' (s := neg) (show (0 : Nat) < infMag by decide)]
      decide
    obtain ⟨f, f1, f2, f3, f4⟩ := hr.2 hlim
    have hf : f = mk' neg 0 := f3.unique (rounds_tiny neg a1 a2) (by
      unfold sgn; split
      · exact (neg_lt_zero.2 a1).ne
      · exact a1.ne')
    subst hf
    rw [hq]
    refine ⟨fun hl => ?_, fun _ => ⟨_, f1, f2, rounds_tiny neg b1 b2, f4⟩⟩
    have := (rounds_tiny neg b1 b2).overflow
    rw [abs_sgn neg b1.le] at this
    have := this.2 hl
    simp only [isInf, finite_mk' (s := neg) (show (0 : Nat) < infMag by decide)] at this
    exact absurd this (by decide)
  · -- far above
    have hc : 10000 ≤ c := h2.2.1 (by omega)
    have great : ∀ d : ℤ, 10000 ≤ d → limit ≤ (m : ℚ) * 10 ^ (d - k) := by
      intro d hd
      refine limit_le' ?_
      have h1 : (10 : ℚ) ^ (324 : ℤ) ≤ 10 ^ (d - k) := zpow_le_zpow_right₀ (by norm_num) (by omega)
      have h0 : (10 : ℚ) ^ (324 : ℤ) = 10 ^ 324 := zpow_natCast 10 324
      rw [h0] at h1
      have h2 : (0 : ℚ) < 10 ^ (d - k) := by positivity
      calc (10 : ℚ) ^ 324 ≤ 10 ^ (d - k) := h1
        _ = 1 * 10 ^ (d - k) := (one_mul _).symm
        _ ≤ m * 10 ^ (d - k) := mul_le_mul_of_nonneg_right hm1 h2.le
    have h1 := hr.1 (great c hc)
    have h2 := great e (by omega)
    rw [hq]
    exact ⟨fun _ => h1, fun h => absurd h2 (not_le.2 h)⟩

theorem signed_body {w : Bytes} {q : ℚ} {e : ℤ} (h : Unsigned w q e) : signed w = (false, w) := by
  cases h with
  | whole ds ex e hd he =>
    cases ds with
    | nil => exact absurd rfl hd.1
    | cons c ds => exact signed_digit (isDigit_iff.2 (hd.2 c (by simp)))
  | point ds fs ex e hd hf hne he =>
    cases ds with
    | nil => rfl
    | cons c ds => exact signed_digit (isDigit_iff.2 (hd c (by simp)))

/-- `strconv.ParseFloat` on the text of a decimal number. -/
theorem parseFloat_decimal {w : Bytes} {neg : Bool} {q : ℚ} {e : ℤ} (h : DecimalText w neg q e) (hs : Sane w e) :
    (limit ≤ |q| → env.parseFloat w = none) ∧
    (|q| < limit → ∃ f, env.parseFloat w = some f ∧ f.Finite ∧ Rounds q f ∧ f.neg? = neg) := by
  have key : ∀ {v : Bytes} {p : ℚ}, Unsigned v p e → Sane v e → (signed w) = (neg, v) → q = sgn neg p →
      (limit ≤ |q| → env.parseFloat w = none) ∧
      (|q| < limit → ∃ f, env.parseFloat w = some f ∧ f.Finite ∧ Rounds q f ∧ f.neg? = neg) := by
    intro v p hu hv hsg hq
    obtain ⟨m, c, h1, h2, h3⟩ := decimal_reads hu hv neg
    unfold Env.parseFloat
    rw [hsg]
    simp only [h1]
    rw [hq, abs_sgn neg h3]
    exact h2
  have short : ∀ {c : UInt8} {v : Bytes}, c = c! '+' ∨ c = c! '-' → Sane (c :: v) e → Sane v e := by
    intro c v hc h
    unfold Sane at *
    rwa [figures_cons hc] at h
  cases h with
  | unsigned _ _ _ h => exact key h hs (signed_body h) rfl
  | plus v _ _ h => exact key h (short (.inl rfl) hs) rfl rfl
  | minus v q _ h => exact key h (short (.inr rfl) hs) rfl rfl

/-! ### Integers -/

theorem digits_of_digitsVal {ds : Bytes} {n : Nat} (h : digitsVal ds = some n) : Digits ds ∧ decimal ds = n := by
  suffices hd : Digits ds by
    rw [digitsVal_digits hd] at h
    exact ⟨hd, Option.some.inj h⟩
  have none_fold : ∀ ds : Bytes, ds.foldl (fun acc c => match acc with
      | none => none
      | some n => if isDigit c then some (n * 10 + (c.toNat - 48)) else none) (none : Option Nat) = none := by
    intro ds
    induction ds with
    | nil => rfl
    | cons c ds ih => exact ih
  have key : ∀ (ds : Bytes) (k n : Nat), ds.foldl (fun acc c => match acc with
      | none => none
      | some n => if isDigit c then some (n * 10 + (c.toNat - 48)) else none) (some k) = some n → All Digit ds := by
    intro ds
    induction ds with
    | nil => intro k n _ c hc; cases hc
    | cons c ds ih =>
      intro k n h
      rw [List.foldl_cons] at h
      cases hc : isDigit c with
      | false =>
        simp only [hc, Bool.false_eq_true, if_false] at h
        rw [none_fold] at h
        cases h
      | true =>
        simp only [hc, if_true] at h
        intro d hd
        rcases List.mem_cons.1 hd with rfl | hd
        · exact isDigit_iff.1 hc
        · exact ih _ _ h d hd
  cases ds with
  | nil => cases h
  | cons c ds => exact ⟨by simp, key _ 0 n h⟩

theorem parseInt_text {s : Bytes} {n : Int64} (h : parseInt s = some n) : ∃ neg, DecimalText s neg (n.toInt : ℚ) 0 := by
  have body : ∀ {ds : Bytes} {k : Nat}, digitsVal ds = some k → Unsigned ds k 0 := by
    intro ds k hk
    obtain ⟨h1, h2⟩ := digits_of_digitsVal hk
    have := Unsigned.whole ds [] 0 h1 .none
    simpa [h2] using this
  unfold parseInt at h
  split at h
  · cases h
  · next ds =>
    cases hd : digitsVal ds with
    | none => rw [hd] at h; cases h
    | some k =>
      simp only [hd] at h
      split at h
      · next hk =>
        cases h
        refine ⟨true, ?_⟩
        have e : (Int64.ofInt (-(k : Int))).toInt = -k := by
          rw [Int64.toInt_ofInt, Int.bmod_def, show (Int64.size : Int) = 18446744073709551616 from rfl]
          omega
        rw [e]
        push_cast
        exact .minus _ _ _ (body hd)
      · cases h
  · next ds =>
    cases hd : digitsVal ds with
    | none => rw [hd] at h; cases h
    | some k =>
      simp only [hd] at h
      split at h
      · next hk =>
        cases h
        refine ⟨false, ?_⟩
        have e : (Int64.ofInt (k : Int)).toInt = k := by
          rw [Int64.toInt_ofInt, Int.bmod_def, show (Int64.size : Int) = 18446744073709551616 from rfl]
          omega
        rw [e]
        exact .plus _ _ _ (body hd)
      · cases h
  · cases hd : digitsVal s with
    | none => rw [hd] at h; cases h
    | some k =>
      simp only [hd] at h
      split at h
      · next hk =>
        cases h
        refine ⟨false, ?_⟩
        have e : (Int64.ofInt (k : Int)).toInt = k := by
          rw [Int64.toInt_ofInt, Int.bmod_def, show (Int64.size : Int) = 18446744073709551616 from rfl]
          omega
        rw [e]
        exact .unsigned _ _ _ (body hd)
      · cases h

theorem parseInt_spelled {s : Bytes} {n : Int64} : parseInt s = some n ↔ Spells s n.toInt := by
  have hr1 := n.le_toInt
  have hr2 := n.toInt_lt
  constructor
  · intro h
    unfold parseInt at h
    split at h
    · cases h
    · next ds =>
      split at h
      · cases h
      · next m hm =>
        obtain ⟨hd, rfl⟩ := digits_of_digitsVal hm
        split at h
        · cases h
          have := Spells.minus ds hd
          rwa [Int64.toInt_ofInt_of_le (by omega) (by omega)]
        · cases h
    · next ds =>
      split at h
      · cases h
      · next m hm =>
        obtain ⟨hd, rfl⟩ := digits_of_digitsVal hm
        split at h
        · cases h
          have := Spells.plus ds hd
          rwa [Int64.toInt_ofInt_of_le (by omega) (by omega)]
        · cases h
    · split at h
      · cases h
      · next m hm =>
        obtain ⟨hd, rfl⟩ := digits_of_digitsVal hm
        split at h
        · cases h
          have := Spells.plain s hd
          rwa [Int64.toInt_ofInt_of_le (by omega) (by omega)]
        · cases h
  · generalize hm : n.toInt = m
    intro h
    cases h with
    | plain ds hd =>
      rw [parseInt_digits hd, if_pos (by omega)]
      rw [← Int64.ofInt_toInt n, hm]
      rfl
    | plus ds hd =>
      unfold parseInt
      simp only [digitsVal_digits hd]
      rw [if_pos (by omega), ← hm, Int64.ofInt_toInt]
    | minus ds hd =>
      unfold parseInt
      simp only [digitsVal_digits hd]
      rw [if_pos (by omega), ← hm, Int64.ofInt_toInt]

/-- Two results of rounding the same number are equal as floats. -/
theorem rounds_feq {q : ℚ} {f g : F64} (hf : Rounds q f) (hg : Rounds q g) : f.feq g = true := by
  by_cases hq : q = 0
  · subst hq
    have z : ∀ {f : F64}, Rounds 0 f → f.key = 0 := by
      intro f hf
      have hfin : f.Finite := finite_of hf.not_nan (by
        cases hi : f.isInf
        · rfl
        · have := hf.overflow.1 hi
          rw [abs_zero] at this
          exact absurd limit_pos (not_lt.2 this))
      have hn := hf.nearest hfin .zero (by unfold F64.Finite; decide)
      have hz : F64.zero.val = 0 := by
        have hm : F64.zero.mag = 0 := rfl
        unfold val; rw [hm, magVal_zero]; simp
      rw [hz] at hn
      simp only [sub_zero, sub_self, abs_zero] at hn
      have : |f.val| = 0 := le_antisymm hn (abs_nonneg _)
      rw [abs_val] at this
      have hm : f.mag = 0 := by
        by_contra hm
        have := magVal_mono (show 0 < f.mag by omega)
        rw [magVal_zero] at this
        linarith
      unfold key
      rw [hm]; split <;> rfl
    rw [feq_iff]
    exact ⟨hf.not_nan, hg.not_nan, by rw [z hf, z hg]⟩
  · rw [hf.unique hg hq, feq_self]
    exact hg.not_nan

/-- `strconv.ParseFloat` reads the text of an integer as that integer, rounded. -/
theorem readsIntegers : ReadsIntegers env := by
  intro s n h
  obtain ⟨neg, ht⟩ := parseInt_text h
  obtain ⟨f, h1, -, h3, -⟩ := (parseFloat_decimal (env := env) ht (.inl (by decide))).2 (by
    refine lt_of_le_of_lt (b := 2 ^ 63) ?_ ?_
    · have h1 := n.le_toInt
      have h2 := n.toInt_lt
      rw [← Int.cast_abs]
      have : |n.toInt| ≤ 2 ^ 63 := abs_le.2 ⟨by omega, by omega⟩
      exact_mod_cast this
    · unfold limit
      rw [show (1024 : Nat) = 54 + 970 from rfl, pow_add]
      have h : (2 : ℚ) ^ 63 ≤ 2 ^ 970 := pow_le_pow_right₀ (by norm_num) (by norm_num)
      have h0 : (0 : ℚ) < 2 ^ 970 := by positivity
      generalize (2 : ℚ) ^ 970 = a at h h0
      generalize (2 : ℚ) ^ 63 = b at h
      norm_num
      linarith)
  exact ⟨f, h1, rounds_feq h3 (rounds_ofInt _)⟩

/-! ### Literals -/

theorem Spec.RealLit.unsigned {w : Bytes} {q : ℚ} {e : ℤ} (h : RealLit w q e) : Unsigned w q e := by
  cases h with
  | mk ds fs ex e h1 h2 h3 => exact .point ds fs ex e h1.2 h2 (by simp [h1.1]) h3

theorem exponent_value {ex : Bytes} (h : Exponent ex) : ∃ e, Exp ex e := by
  cases h with
  | none => exact ⟨_, .none⟩
  | some c sign ds h1 h2 h3 =>
    rcases h2 with h2 | h2 | rfl
    · exact ⟨_, .pos _ _ _ h1 (.inl h2) h3⟩
    · exact ⟨_, .pos _ _ _ h1 (.inr h2) h3⟩
    · exact ⟨_, .neg _ _ h1 h3⟩

theorem exponent_of {ex : Bytes} {e : ℤ} (h : Exp ex e) : Exponent ex := by
  cases h with
  | none => exact .none
  | pos c sign ds h1 h2 h3 => exact .some _ _ _ h1 (by tauto) h3
  | neg c ds h1 h3 => exact .some _ [c! '-'] _ h1 (by tauto) h3

theorem real_lit {w next : Bytes} (h : RealText w next) : ∃ q e, RealLit w q e := by
  cases h with
  | mk ds fs ex next h1 h2 h3 =>
    obtain ⟨e, he⟩ := exponent_value h3
    exact ⟨_, _, .mk ds fs ex e h1 h2 he⟩

theorem real_text {w : Bytes} {q : ℚ} {e : ℤ} (h : RealLit w q e) : RealText w [] := by
  cases h with
  | mk ds fs ex e h1 h2 h3 => exact .mk ds fs ex [] h1 h2 (exponent_of h3) (fun c hc => by simp at hc) (fun _ c hc => by simp at hc)

/-- A literal denotes a finite number. -/
theorem real_finite {w next : Bytes} {f : F64} (h : RealText w next) (hf : env.parseFloat w = some f) : f.Finite ∧ f.neg? = false := by
  obtain ⟨q, e, hl⟩ := real_lit h
  obtain ⟨m, k, c, h1, -⟩ := decimal_spec hl.unsigned
  unfold Env.parseFloat at hf
  rw [signed_body hl.unsigned] at hf
  simp only [h1] at hf
  have hr := ofDecimal_reads false m (c - k)
  rcases lt_or_ge ((m : ℚ) * 10 ^ (c - (k : ℤ))) limit with hlt | hge
  · obtain ⟨g, g1, g2, -, g4⟩ := hr.2 hlt
    rw [g1] at hf
    cases hf
    exact ⟨g2, g4⟩
  · rw [hr.1 hge] at hf
    cases hf

end JP
