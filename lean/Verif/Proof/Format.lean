import Mathlib.Tactic.LinearCombination
import Verif.Proof.Decimal
import Verif.Spec.Shortest
/-!
Formatting of floats: the digits are the shortest, and the text reads back as the same float.
-/
namespace JP
open Spec F64

theorem F64.Rounds.between {q1 q q2 : ℚ} {x : F64} (h1 : Rounds q1 x) (h2 : Rounds q2 x) (hf : x.Finite) (l1 : q1 ≤ q) (l2 : q ≤ q2) :
    Rounds q x := by
  have hi : x.isInf = false := (not_special hf).2
  have n1 : |q1| < limit := by
    rw [← not_le, ← h1.overflow, hi]; simp
  have n2 : |q2| < limit := by
    rw [← not_le, ← h2.overflow, hi]; simp
  have key : ∀ (a b q : ℚ), |a - q| ≤ |b - q| ↔ (a - b) * (a + b - 2 * q) ≤ 0 := by
    intro a b q
    rw [← sq_le_sq]
    constructor <;> intro h <;> nlinarith
  have key' : ∀ (a b q : ℚ), |a - q| = |b - q| ↔ (a - b) * (a + b - 2 * q) = 0 := by
    intro a b q
    rw [← sq_eq_sq_iff_abs_eq_abs]
    constructor <;> intro h <;> nlinarith
  refine ⟨h1.not_nan, ?_, fun h => h1.negative (lt_of_le_of_lt l1 h), fun h => h2.positive (lt_of_lt_of_le h l2), fun _ y hy => ?_,
    fun _ y hy hne he => ?_⟩
  · rw [hi]
    simp only [Bool.false_eq_true, false_iff, not_le]
    rw [abs_lt] at *
    constructor <;> linarith
  · have a1 := h1.nearest hf y hy
    have a2 := h2.nearest hf y hy
    rw [key] at *
    rcases le_total x.val y.val with h | h
    · nlinarith
    · nlinarith
  · have a1 := h1.nearest hf y hy
    have a2 := h2.nearest hf y hy
    have e1 := h1.even hf y hy hne
    have e2 := h2.even hf y hy hne
    rw [key] at a1 a2
    rw [key'] at he e1 e2
    have hz : x.val + y.val - 2 * q = 0 := by
      rcases mul_eq_zero.1 he with h | h
      · exact absurd (by linarith) hne
      · exact h
    rcases lt_or_gt_of_ne hne with h | h
    · apply e1
      have : x.val + y.val - 2 * q1 ≤ 0 := by
        by_contra hc
        have := mul_pos (show 0 < x.val - y.val by linarith) (not_le.1 hc)
        linarith
      have : x.val + y.val - 2 * q1 = 0 := by linarith
      rw [this, mul_zero]
    · apply e2
      have : 0 ≤ x.val + y.val - 2 * q2 := by
        by_contra hc
        have := mul_pos_of_neg_of_neg (show x.val - y.val < 0 by linarith) (not_le.1 hc)
        linarith
      have : x.val + y.val - 2 * q2 = 0 := by linarith
      rw [this, mul_zero]

theorem signedDec_eq (x : F64) (m : Nat) (e : ℤ) : signedDec x m e = sgn x.neg? (m * 10 ^ e) := rfl

theorem finite_eq {x y : F64} (h1 : x.neg? = y.neg?) (h2 : x.val = y.val) : x = y := by
  refine ext_mag h1 (magVal_mono.injective ?_)
  rw [← abs_val, ← abs_val, h2]

/-- A finite float is what its value rounds to. -/
theorem rounds_val {x : F64} (hf : x.Finite) : Rounds x.val x := by
  refine ⟨(not_special hf).1, ?_, fun h => ?_, fun h => ?_, fun _ y _ => by simp, fun _ y _ hne he => ?_⟩
  · rw [(not_special hf).2]
    simp only [Bool.false_eq_true, false_iff, not_le]
    exact val_lt_limit hf
  · by_contra hc
    unfold val at h
    rw [if_neg hc] at h
    exact absurd h (not_lt.2 (magVal_nonneg _))
  · by_contra hc
    unfold val at h
    rw [if_pos (by simpa using hc)] at h
    linarith [magVal_nonneg x.mag]
  · rw [sub_self, abs_zero, eq_comm, abs_eq_zero] at he
    exact absurd (by linarith) hne

theorem readsBack_iff {x : F64} (hf : x.Finite) (m : Nat) (hm : 0 < m) (e : ℤ) :
    readsBack x m e = true ↔ Rounds (signedDec x m e) x := by
  unfold readsBack
  rw [beq_iff_eq, signedDec_eq]
  obtain ⟨h1, h2⟩ := ofDecimal_reads x.neg? m e
  have hp : (0 : ℚ) < m * 10 ^ e := mul_pos (by exact_mod_cast hm) (by positivity)
  constructor
  · intro h
    rcases lt_or_ge ((m : ℚ) * 10 ^ e) limit with hl | hl
    · obtain ⟨f, hf, -, hr, -⟩ := h2 hl
      rw [h] at hf
      cases hf
      exact hr
    · rw [h1 hl] at h; cases h
  · intro h
    have hl : (m : ℚ) * 10 ^ e < limit := by
      have := h.overflow
      rw [(not_special hf).2, abs_sgn _ hp.le] at this
      simpa using this
    obtain ⟨f, hf', -, hr, -⟩ := h2 hl
    rw [hf', h.unique hr]
    unfold sgn
    split
    · linarith
    · exact hp.ne'

/-! ### Digits of natural numbers -/

theorem digit_char (n : Nat) (h : n < 10) : Digit (UInt8.ofNat (48 + n)) ∧ (UInt8.ofNat (48 + n)).toNat - 48 = n := by
  match n, h with
  | 0, _ | 1, _ | 2, _ | 3, _ | 4, _ | 5, _ | 6, _ | 7, _ | 8, _ | 9, _ => exact ⟨⟨by decide, by decide⟩, by decide⟩

theorem decimal_append (a : Bytes) (c : UInt8) : decimal (a ++ [c]) = 10 * decimal a + (c.toNat - 48) := by
  simp [decimal, List.foldl_append]

theorem natDigits_spec : ∀ (f n : Nat), n < f → Digits (natDigits f n) ∧ decimal (natDigits f n) = n ∧
    (0 < n → 10 ^ ((natDigits f n).length - 1) ≤ n) := by
  intro f
  induction f with
  | zero => intro n h; omega
  | succ f ih =>
    intro n h
    unfold natDigits
    by_cases hn : n < 10
    · rw [if_pos hn]
      obtain ⟨h1, h2⟩ := digit_char n hn
      refine ⟨⟨by simp, by simpa [All] using h1⟩, ?_, fun h => by simp; omega⟩
      simpa [decimal] using h2
    · rw [if_neg hn]
      obtain ⟨⟨i0, i1⟩, i2, i3⟩ := ih (n / 10) (by omega)
      obtain ⟨h1, h2⟩ := digit_char (n % 10) (by omega)
      refine ⟨⟨by simp, ?_⟩, ?_, fun _ => ?_⟩
      · intro c hc
        rcases List.mem_append.1 hc with hc | hc
        · exact i1 c hc
        · rw [List.mem_singleton.1 hc]; exact h1
      · rw [decimal_append, i2, h2]; omega
      · have := i3 (by omega)
        have hl : 0 < (natDigits f (n / 10)).length := List.length_pos_iff.2 i0
        rw [List.length_append, List.length_singleton, Nat.add_sub_cancel]
        calc 10 ^ (natDigits f (n / 10)).length = 10 * 10 ^ ((natDigits f (n / 10)).length - 1) := by
              rw [← pow_succ', Nat.sub_add_cancel hl]
          _ ≤ 10 * (n / 10) := Nat.mul_le_mul_left _ this
          _ ≤ n := by omega

/-- The decimal digits of a natural number. -/
theorem natToBytes_spec (n : Nat) : Digits (natToBytes n) ∧ decimal (natToBytes n) = n :=
  ⟨(natDigits_spec _ n (by omega)).1, (natDigits_spec _ n (by omega)).2.1⟩

theorem natToBytes_length {n : Nat} (h : 0 < n) : 0 < (natToBytes n).length ∧ 10 ^ ((natToBytes n).length - 1) ≤ n ∧
    n < 10 ^ (natToBytes n).length := by
  obtain ⟨h1, h2, h3⟩ := natDigits_spec (n + 1) n (by omega)
  refine ⟨List.length_pos_iff.2 h1.1, h3 h, ?_⟩
  have := decimal_lt h1.2
  rwa [h2] at this

/-! ### The shortest decimal -/

theorem exactDecimal_spec (x : F64) : ((exactDecimal x).1 : ℚ) * 10 ^ (exactDecimal x).2 = magVal x.mag := by
  rw [val_man]
  unfold exactDecimal
  split
  · next h =>
    obtain ⟨n, hn⟩ := Int.eq_ofNat_of_zero_le h
    simp only [hn, Int.toNat_natCast, zpow_zero, mul_one, Nat.cast_mul, Nat.cast_pow, Nat.cast_ofNat, zpow_natCast]
  · next h =>
    obtain ⟨n, hn⟩ : ∃ n : Nat, x.expo = -(n : ℤ) := ⟨(-x.expo).toNat, by omega⟩
    simp only [hn, neg_neg, Int.toNat_natCast, Nat.cast_mul, Nat.cast_pow, Nat.cast_ofNat, zpow_neg, zpow_natCast]
    rw [show (10 : ℚ) = 5 * 2 by norm_num, mul_pow, mul_inv]
    have : (5 : ℚ) ^ n ≠ 0 := by positivity
    field_simp

/-- Without the last `k` digits of `m`, a number of no more digits is not between the two neighbours. -/
theorem neighbours {M j k : Nat} {E : ℤ} (h1 : 10 ^ (j + k) ≤ M * 10) (hj : 0 < j) {m : Nat} {e : ℤ} (hm : m < 10 ^ j) :
    (m : ℚ) * 10 ^ e ≤ (M / 10 ^ k : Nat) * 10 ^ (E + k) ∨ ((M / 10 ^ k : Nat) + 1) * 10 ^ (E + k) ≤ (m : ℚ) * 10 ^ e := by
  by_cases he : e < E + k
  · left
    have hlo : 10 ^ (j - 1) ≤ M / 10 ^ k := by
      rw [Nat.le_div_iff_mul_le (by positivity), ← pow_add]
      have : 10 ^ (j + k) = 10 ^ (j - 1 + k) * 10 := by rw [← pow_succ]; congr 1; omega
      omega
    calc (m : ℚ) * 10 ^ e ≤ 10 ^ j * 10 ^ e := by
          refine mul_le_mul_of_nonneg_right ?_ (by positivity)
          exact_mod_cast hm.le
      _ ≤ 10 ^ (j - 1) * 10 ^ (E + k) := by
          rw [← zpow_natCast, ← zpow_natCast, ← zpow_add₀ (by norm_num), ← zpow_add₀ (by norm_num)]
          exact zpow_le_zpow_right₀ (by norm_num) (by omega)
      _ ≤ (M / 10 ^ k : Nat) * 10 ^ (E + k) := by
          refine mul_le_mul_of_nonneg_right ?_ (by positivity)
          exact_mod_cast hlo
  · obtain ⟨n, hn⟩ : ∃ n : Nat, e = E + k + n := ⟨(e - (E + k)).toNat, by omega⟩
    have hv : (m : ℚ) * 10 ^ e = ((m * 10 ^ n : Nat) : ℚ) * 10 ^ (E + k) := by
      rw [hn, zpow_add₀ (by norm_num) (E + k), zpow_natCast]
      push_cast
      ring
    rw [hv]
    rcases Nat.lt_or_ge (M / 10 ^ k) (m * 10 ^ n) with h | h
    · right
      refine mul_le_mul_of_nonneg_right ?_ (by positivity)
      exact_mod_cast h
    · left
      refine mul_le_mul_of_nonneg_right ?_ (by positivity)
      exact_mod_cast h

theorem dist_signed (x : F64) (m : Nat) (e : ℤ) : |signedDec x m e - x.val| = |(m : ℚ) * 10 ^ e - magVal x.mag| := by
  unfold signedDec val
  split
  · rw [← abs_neg]; congr 1; ring
  · rfl

theorem reads_between {x : F64} (hf : x.Finite) {m : Nat} {e : ℤ} (h : Rounds (signedDec x m e) x) {m' : Nat} {e' : ℤ}
    (hb : ((m : ℚ) * 10 ^ e ≤ m' * 10 ^ e' ∧ (m' : ℚ) * 10 ^ e' ≤ magVal x.mag) ∨
      ((m' : ℚ) * 10 ^ e' ≤ m * 10 ^ e ∧ magVal x.mag ≤ (m' : ℚ) * 10 ^ e')) : Rounds (signedDec x m' e') x := by
  have hv := rounds_val hf
  unfold signedDec at *
  unfold val at hv
  by_cases hn : x.neg? = true
  · rw [if_pos hn] at *
    rcases hb with ⟨h1, h2⟩ | ⟨h1, h2⟩
    · exact hv.between h hf (by linarith) (by linarith)
    · exact h.between hv hf (by linarith) (by linarith)
  · rw [if_neg hn] at *
    rcases hb with ⟨h1, h2⟩ | ⟨h1, h2⟩
    · exact h.between hv hf h1 h2
    · exact hv.between h hf h2 h1

theorem reads_pos {x : F64} (hf : x.Finite) (h0 : x.mag ≠ 0) {m : Nat} {e : ℤ} (h : Rounds (signedDec x m e) x) : 0 < m := by
  rcases Nat.eq_zero_or_pos m with rfl | hm
  · exfalso
    have := h.nearest hf (F64.mk 0) (by unfold F64.Finite; decide)
    simp only [signedDec, Nat.cast_zero, zero_mul, neg_zero, ite_self, sub_zero] at this
    rw [abs_val, abs_val] at this
    have hz : magVal (F64.mk 0).mag = 0 := by
      have : (F64.mk 0).mag = 0 := by decide
      rw [this]; exact magVal_zero
    rw [hz] at this
    have hp : magVal 0 < magVal x.mag := magVal_mono (Nat.pos_of_ne_zero h0)
    rw [magVal_zero] at hp
    linarith
  · exact hm

theorem stripZeros_spec : ∀ (n m : Nat) (e : ℤ), 0 < m → m < 10 ^ n →
    (stripZeros n m e).1 % 10 ≠ 0 ∧ ∃ z : Nat, m = (stripZeros n m e).1 * 10 ^ z ∧ (stripZeros n m e).2 = e + z := by
  intro n
  induction n with
  | zero => intro m e h1 h2; simp at h2; omega
  | succ n ih =>
    intro m e h1 h2
    unfold stripZeros
    split
    · next h =>
      have h : m % 10 = 0 := by simpa using h
      obtain ⟨i1, z, i2, i3⟩ := ih (m / 10) (e + 1) (by omega) (by rw [pow_succ] at h2; omega)
      refine ⟨i1, z + 1, ?_, by rw [i3]; push_cast; ring⟩
      rw [pow_succ, ← mul_assoc, ← i2]; omega
    · next h =>
      exact ⟨by simpa using h, 0, by simp, by simp⟩

theorem dropMost_spec (x : F64) (M : Nat) (E : ℤ) (h0 : dropDigits x M E 0 = some (M, E)) : ∀ k0 : Nat, ∃ k ≤ k0,
    dropDigits x M E k = some (dropMost x M E k0) ∧ ∀ k', k < k' → k' ≤ k0 → dropDigits x M E k' = none := by
  intro k0
  induction k0 with
  | zero => exact ⟨0, le_refl _, by simpa [dropMost] using h0, fun k' _ _ => by omega⟩
  | succ k0 ih =>
    unfold dropMost
    split
    · next r h => exact ⟨k0 + 1, le_refl _, h, fun k' _ _ => by omega⟩
    · next h =>
      obtain ⟨k, h1, h2, h3⟩ := ih
      refine ⟨k, by omega, h2, fun k' a b => ?_⟩
      rcases Nat.lt_or_ge k0 k' with hk | hk
      · rwa [show k' = k0 + 1 by omega]
      · exact h3 k' a hk

/-- What dropping `k` digits gives. -/
theorem dropDigits_spec {x : F64} (hf : x.Finite) {M : Nat} {E : ℤ} {k : Nat} (hl : 0 < M / 10 ^ k) {c : Nat} {e : ℤ}
    (h : dropDigits x M E k = some (c, e)) : e = E + k ∧ Rounds (signedDec x c e) x ∧
      ((c = M / 10 ^ k ∧ (Rounds (signedDec x (c + 1) e) x → 2 * (M % 10 ^ k) < 10 ^ k ∨ (2 * (M % 10 ^ k) = 10 ^ k ∧ c % 2 = 0))) ∨
       (c = M / 10 ^ k + 1 ∧ (Rounds (signedDec x (M / 10 ^ k) e) x → 10 ^ k < 2 * (M % 10 ^ k) ∨ (2 * (M % 10 ^ k) = 10 ^ k ∧ c % 2 = 0)))) := by
  unfold dropDigits at h
  simp only at h
  generalize M / 10 ^ k = lo at *
  generalize M % 10 ^ k = r at *
  have r1 := readsBack_iff hf lo hl (E + k)
  have r2 := readsBack_iff hf (lo + 1) (by omega) (E + k)
  cases h1 : readsBack x lo (E + k) <;> cases h2 : readsBack x (lo + 1) (E + k) <;> rw [h1, h2] at h <;> simp only [Option.some.injEq, Prod.mk.injEq, reduceCtorEq] at h
  · obtain ⟨rfl, rfl⟩ := h
    refine ⟨rfl, r2.1 h2, Or.inr ⟨rfl, fun h => ?_⟩⟩
    rw [r1.2 h] at h1; cases h1
  · obtain ⟨rfl, rfl⟩ := h
    refine ⟨rfl, r1.1 h1, Or.inl ⟨rfl, fun h => ?_⟩⟩
    rw [r2.2 h] at h2; cases h2
  · obtain ⟨hc, rfl⟩ := h
    split at hc
    · next hh =>
      subst hc
      refine ⟨rfl, r1.1 h1, Or.inl ⟨rfl, fun _ => ?_⟩⟩
      simpa using hh
    · next hh =>
      subst hc
      refine ⟨rfl, r2.1 h2, Or.inr ⟨rfl, fun _ => ?_⟩⟩
      simp only [Bool.or_eq_true, decide_eq_true_eq, Bool.and_eq_true, beq_iff_eq, not_or, not_and] at hh
      obtain ⟨a, b⟩ := hh
      by_cases hr : 2 * r = 10 ^ k
      · right; exact ⟨hr, by have := b hr; omega⟩
      · left; omega

theorem dropDigits_none {x : F64} (hf : x.Finite) {M : Nat} {E : ℤ} {k : Nat} (hl : 0 < M / 10 ^ k)
    (h : dropDigits x M E k = none) : ¬ Rounds (signedDec x (M / 10 ^ k) (E + k)) x ∧ ¬ Rounds (signedDec x (M / 10 ^ k + 1) (E + k)) x := by
  rw [← readsBack_iff hf _ hl, ← readsBack_iff hf _ (by omega)]
  unfold dropDigits at h
  simp only at h
  cases h1 : readsBack x (M / 10 ^ k) (E + k) <;> cases h2 : readsBack x (M / 10 ^ k + 1) (E + k) <;> rw [h1, h2] at h <;> simp at h ⊢

theorem floor_le {M k : Nat} {E : ℤ} : ((M / 10 ^ k : Nat) : ℚ) * 10 ^ (E + k) ≤ M * 10 ^ E := by
  rw [zpow_add₀ (by norm_num), mul_comm ((10 : ℚ) ^ E), ← mul_assoc, zpow_natCast]
  refine mul_le_mul_of_nonneg_right ?_ (by positivity)
  exact_mod_cast Nat.div_mul_le_self M (10 ^ k)

theorem le_ceil {M k : Nat} {E : ℤ} : (M : ℚ) * 10 ^ E ≤ ((M / 10 ^ k : Nat) + 1) * 10 ^ (E + k) := by
  rw [zpow_add₀ (by norm_num), mul_comm ((10 : ℚ) ^ E), ← mul_assoc, zpow_natCast]
  refine mul_le_mul_of_nonneg_right ?_ (by positivity)
  have := Nat.lt_mul_div_succ M (show 0 < 10 ^ k by positivity)
  have h2 : M ≤ (M / 10 ^ k + 1) * 10 ^ k := by rw [mul_comm]; exact this.le
  exact_mod_cast h2

/-- A decimal of few digits that reads back: one of the neighbours does too, and is no farther. -/
theorem neighbour_reads {x : F64} (hf : x.Finite) {M j k : Nat} {E : ℤ} (hM : (M : ℚ) * 10 ^ E = magVal x.mag)
    (h1 : 10 ^ (j + k) ≤ M * 10) (hj : 0 < j) {m : Nat} {e : ℤ} (hm : m < 10 ^ j) (hr : Rounds (signedDec x m e) x) :
    (Rounds (signedDec x (M / 10 ^ k) (E + k)) x ∧
      |((M / 10 ^ k : Nat) : ℚ) * 10 ^ (E + k) - magVal x.mag| ≤ |(m : ℚ) * 10 ^ e - magVal x.mag|) ∨
    (Rounds (signedDec x (M / 10 ^ k + 1) (E + k)) x ∧
      |((M / 10 ^ k + 1 : Nat) : ℚ) * 10 ^ (E + k) - magVal x.mag| ≤ |(m : ℚ) * 10 ^ e - magVal x.mag|) := by
  have f1 := floor_le (M := M) (k := k) (E := E)
  have f2 := le_ceil (M := M) (k := k) (E := E)
  rw [hM] at f1 f2
  rcases neighbours (E := E) h1 hj (e := e) hm with h | h
  · left
    refine ⟨reads_between hf hr (Or.inl ⟨h, f1⟩), ?_⟩
    rw [abs_of_nonpos (by linarith), abs_of_nonpos (by linarith)]
    linarith
  · right
    refine ⟨reads_between hf hr (Or.inr ⟨by push_cast; exact h, by push_cast; exact f2⟩), ?_⟩
    push_cast
    rw [abs_of_nonneg (by linarith), abs_of_nonneg (by linarith)]
    linarith

theorem half_way {S lo P r M : Nat} (h : S * P = 2 * M) (hM : P * lo + r = M) (hr : r < P) :
    (S = 2 * lo ∧ r = 0) ∨ (S = 2 * lo + 1 ∧ 2 * r = P) := by
  have e1 : S * P = 2 * lo * P + 2 * r := by rw [h, ← hM]; ring
  have l1 : 2 * lo ≤ S := by
    by_contra hlt
    have := Nat.mul_le_mul_right P (show S + 1 ≤ 2 * lo by omega)
    rw [Nat.add_mul] at this
    omega
  obtain ⟨d, rfl⟩ := Nat.exists_eq_add_of_le l1
  have e2 : d * P = 2 * r := by rw [Nat.add_mul] at e1; omega
  match d with
  | 0 => left; omega
  | 1 => right; omega
  | d + 2 =>
    rw [Nat.add_mul] at e2
    omega

/-- The model's digits are the shortest. -/
theorem shortest_spec {x : F64} (hf : x.Finite) (h0 : x.mag ≠ 0) : Shortest x (shortest x).1 (shortest x).2 := by
  have hM := exactDecimal_spec x
  unfold shortest
  simp only
  generalize (exactDecimal x).1 = M at *
  generalize (exactDecimal x).2 = E at *
  have hp : 0 < magVal x.mag := by
    have : magVal 0 < magVal x.mag := magVal_mono (Nat.pos_of_ne_zero h0)
    rwa [magVal_zero] at this
  have hM0 : 0 < M := by
    rcases Nat.eq_zero_or_pos M with rfl | h
    · simp at hM; linarith
    · exact h
  obtain ⟨hD, hlow, hhigh⟩ := natToBytes_length hM0
  generalize (natToBytes M).length = D at *
  have hRM : Rounds (signedDec x M E) x := by
    have := rounds_val hf
    unfold signedDec
    unfold val at this
    rwa [hM]
  have hd0 : dropDigits x M E 0 = some (M, E) := by
    have := (readsBack_iff hf M hM0 E).2 hRM
    unfold dropDigits
    simp only [pow_zero, Nat.div_one, Nat.mod_one, Nat.cast_zero, add_zero, this]
    split <;> simp_all
  obtain ⟨k, hk, hdrop, hnone⟩ := dropMost_spec x M E hd0 (D - 1)
  generalize dropMost x M E (D - 1) = ce at *
  obtain ⟨c, e⟩ := ce
  simp only
  have hlo : ∀ k, k ≤ D - 1 → 10 ^ (D - k - 1) ≤ M / 10 ^ k := by
    intro k hk
    rw [Nat.le_div_iff_mul_le (by positivity), ← pow_add]
    rwa [show D - k - 1 + k = D - 1 by omega]
  have hM10 : ∀ k, k ≤ D - 1 → 10 ^ (D - k + k) ≤ M * 10 := by
    intro k hk
    rw [show D - k + k = D - 1 + 1 by omega, pow_succ]
    omega
  have hlo0 : ∀ k, k ≤ D - 1 → 0 < M / 10 ^ k := fun k hk => lt_of_lt_of_le (by positivity) (hlo k hk)
  obtain ⟨rfl, hR, hcase⟩ := dropDigits_spec hf (hlo0 k hk) hdrop
  have hc0 : 0 < c := reads_pos hf h0 hR
  have hhi : M / 10 ^ k < 10 ^ (D - k) := by
    rw [Nat.div_lt_iff_lt_mul (by positivity), ← pow_add]
    rwa [show D - k + k = D by omega]
  -- no decimal with fewer digits
  have hleast : ∀ (m' : Nat) (e' : ℤ), Rounds (signedDec x m' e') x → 10 ^ (D - k - 1) ≤ m' := by
    intro m' e' hr
    by_contra hlt
    by_cases hkD : k + 1 ≤ D - 1
    · obtain ⟨n1, n2⟩ := dropDigits_none hf (hlo0 _ hkD) (hnone (k + 1) (by omega) hkD)
      rcases neighbour_reads hf hM (hM10 _ hkD) (by omega) (by rw [not_le] at hlt; exact hlt) hr with h | h
      · exact n1 h.1
      · exact n2 h.1
    · rw [show D - k - 1 = 0 by omega, pow_zero] at hlt
      exact hlt (reads_pos hf h0 hr)
  obtain ⟨hc1, hcD⟩ := natToBytes_length hc0
  obtain ⟨htrim, z, hz, he⟩ := stripZeros_spec (natToBytes c).length c (E + k) hc0 hcD.2
  generalize (stripZeros (natToBytes c).length c (E + k)).1 = m at *
  generalize (stripZeros (natToBytes c).length c (E + k)).2 = e1 at *
  have hval : (m : ℚ) * 10 ^ e1 = c * 10 ^ (E + k) := by
    rw [he, hz, zpow_add₀ (by norm_num) (E + k), zpow_natCast]
    push_cast
    ring
  have hsd : signedDec x m e1 = signedDec x c (E + k) := by
    unfold signedDec
    rw [hval]
  have hmj : m < 10 ^ (D - k) := by
    rcases Nat.lt_or_ge c (10 ^ (D - k)) with h | h
    · have : m * 1 ≤ m * 10 ^ z := Nat.mul_le_mul_left _ (Nat.one_le_iff_ne_zero.2 (by positivity))
      omega
    · have hc : c = 10 ^ (D - k) := by
        rcases hcase with ⟨h, -⟩ | ⟨h, -⟩ <;> omega
      have h2 : m ∣ 10 ^ (D - k) := ⟨10 ^ z, by rw [← hc, hz]⟩
      refine lt_of_le_of_ne (Nat.le_of_dvd (by positivity) h2) fun h => htrim ?_
      rw [h, show D - k = D - k - 1 + 1 by omega, pow_succ]
      omega
  -- the distance of the chosen one
  have hdist : ∀ b, b = M / 10 ^ k ∨ b = M / 10 ^ k + 1 → Rounds (signedDec x b (E + k)) x →
      |(c : ℚ) * 10 ^ (E + k) - magVal x.mag| ≤ |(b : ℚ) * 10 ^ (E + k) - magVal x.mag| := by
    intro b hb hr
    have hdm := Nat.div_add_mod M (10 ^ k)
    have hml := Nat.mod_lt M (show 0 < 10 ^ k by positivity)
    have hv : ∀ a : Nat, |(a : ℚ) * 10 ^ (E + k) - magVal x.mag| = |((a * 10 ^ k : Nat) : ℚ) - M| * 10 ^ E := by
      intro a
      rw [← hM, zpow_add₀ (by norm_num), zpow_natCast]
      rw [← abs_of_pos (show (0 : ℚ) < 10 ^ E by positivity), ← abs_mul, abs_of_pos (show (0 : ℚ) < 10 ^ E by positivity)]
      congr 1
      push_cast
      ring
    rw [hv, hv]
    refine mul_le_mul_of_nonneg_right ?_ (by positivity)
    generalize M / 10 ^ k = lo at *
    generalize M % 10 ^ k = r at *
    generalize (10 : ℕ) ^ k = P at *
    have hMr : (M : ℚ) = P * lo + r := by exact_mod_cast hdm.symm
    have hr0 : (0 : ℚ) ≤ r := by positivity
    have hrP : (r : ℚ) < P := by exact_mod_cast hml
    have d1 : |((lo * P : Nat) : ℚ) - M| = r := by
      push_cast; rw [hMr, abs_of_nonpos (by nlinarith)]; ring
    have d2 : |(((lo + 1) * P : Nat) : ℚ) - M| = P - r := by
      push_cast; rw [hMr, abs_of_nonneg (by nlinarith)]; ring
    rcases hcase with ⟨rfl, h2⟩ | ⟨rfl, h2⟩ <;> rcases hb with rfl | rfl
    · exact le_refl _
    · rw [d1, d2]
      have : 2 * r ≤ P := by rcases h2 hr with h | h <;> omega
      have : (2 : ℚ) * r ≤ P := by exact_mod_cast this
      linarith
    · rw [d1, d2]
      have : P ≤ 2 * r := by rcases h2 hr with h | h <;> omega
      have : (P : ℚ) ≤ 2 * r := by exact_mod_cast this
      linarith
    · exact le_refl _
  refine ⟨by rw [hsd]; exact hR, ?_, htrim, ?_, ?_⟩
  · intro m' e' k' hr hlt
    have := hleast m' e' hr
    have h2 : 10 ^ (D - k - 1) < 10 ^ k' := by omega
    have h3 := (Nat.pow_lt_pow_iff_right (by norm_num : 1 < 10)).1 h2
    exact lt_of_lt_of_le hmj (Nat.pow_le_pow_right (by norm_num) (by omega))
  · intro m' e' hr hk'
    rw [hsd, dist_signed, dist_signed]
    rcases neighbour_reads hf hM (hM10 _ hk) (by omega) (hk' _ hmj) hr with ⟨a, b⟩ | ⟨a, b⟩
    · exact le_trans (hdist _ (Or.inl rfl) a) b
    · exact le_trans (hdist _ (Or.inr rfl) a) b
  · intro m' hr hne heq
    rw [dist_signed, dist_signed] at heq
    have hE : (0 : ℚ) < 10 ^ E := by positivity
    have hs : (m : ℚ) * 10 ^ e1 + m' * 10 ^ e1 = 2 * (M * 10 ^ E) := by
      rw [hM]
      rcases abs_eq_abs.1 heq with h | h
      · exfalso; apply hne
        have h : (m' : ℚ) * 10 ^ e1 = m * 10 ^ e1 := by linarith
        have := mul_right_cancel₀ (show (10 : ℚ) ^ e1 ≠ 0 by positivity) h
        exact_mod_cast this
      · linarith
    have hs' : (c + m' * 10 ^ z) * 10 ^ k = 2 * M := by
      have hadd := fun a b => zpow_add₀ (show (10 : ℚ) ≠ 0 by norm_num) a b
      rw [hval] at hs
      simp only [he, hadd, zpow_natCast] at hs
      have : (10 : ℚ) ^ E * ((c + m' * 10 ^ z) * 10 ^ k) = 10 ^ E * (2 * M) := by
        generalize (10 : ℚ) ^ E = a at *
        generalize (10 : ℚ) ^ k = b at *
        linear_combination hs
      have := mul_left_cancel₀ hE.ne' this
      exact_mod_cast this
    have hdm := Nat.div_add_mod M (10 ^ k)
    have hml := Nat.mod_lt M (show 0 < 10 ^ k by positivity)
    have hlo1 := hlo0 k hk
    have hzero : M % 10 ^ k = 0 → Rounds (signedDec x (M / 10 ^ k) (E + k)) x := by
      intro hr0
      have hq : ((M / 10 ^ k : Nat) : ℚ) * 10 ^ (E + k) = M * 10 ^ E := by
        have : M = 10 ^ k * (M / 10 ^ k) := by omega
        have hq : (M : ℚ) = 10 ^ k * (M / 10 ^ k : Nat) := by exact_mod_cast this
        rw [zpow_add₀ (by norm_num), zpow_natCast]
        rw [mul_comm ((10 : ℚ) ^ E), ← mul_assoc, hq]
        ring
      unfold signedDec at hRM ⊢
      rwa [hq]
    generalize M / 10 ^ k = lo at *
    generalize M % 10 ^ k = r at *
    generalize (10 : ℕ) ^ k = P at *
    have hP : 0 < P := by omega
    -- two multiples of `10 ^ z` that differ by one
    have hz0 : ∀ a b : Nat, a * 10 ^ z + 1 = b * 10 ^ z → z = 0 := by
      intro a b h
      have h1 : 10 ^ z ∣ 1 := (Nat.dvd_add_right (Dvd.intro_left a rfl)).1 ⟨b, by rw [h, mul_comm]⟩
      have h2 := Nat.eq_one_of_dvd_one h1
      rcases Nat.eq_zero_or_pos z with h | h
      · exact h
      · exact absurd h2 (Nat.one_lt_pow (by omega) (by norm_num)).ne'
    have hhalf := half_way hs' hdm hml
    clear hs hs' heq hdist hval hsd hM hRM hnone hdrop hleast hmj hcD hc1 hhi hd0 hlo hM10 hlo0
    rcases hcase with ⟨hc, h2⟩ | ⟨hc, h2⟩
    · rcases hhalf with ⟨h, -⟩ | ⟨h, hr2⟩
      · exfalso; apply hne
        have : m' * 10 ^ z = m * 10 ^ z := by omega
        exact Nat.eq_of_mul_eq_mul_right (by positivity) this
      · have hT : m' * 10 ^ z = c + 1 := by omega
        have hz1 := hz0 m m' (by rw [← hz, hT])
        subst hz1
        rw [pow_zero, mul_one] at hz hT
        rw [Nat.cast_zero, add_zero] at he
        subst he hz hT
        rcases h2 hr with h2 | h2
        · omega
        · exact h2.2
    · rcases hhalf with ⟨h, hr0⟩ | ⟨h, hr2⟩
      · exfalso
        rcases h2 (hzero hr0) with h2 | h2 <;> omega
      · have hT : m' * 10 ^ z = lo := by omega
        have hz1 := hz0 m' m (by rw [← hz, hc, hT])
        subst hz1
        rw [pow_zero, mul_one] at hz hT
        rw [Nat.cast_zero, add_zero] at he
        subst he hz hT
        rcases h2 hr with h2 | h2
        · omega
        · exact h2.2

/-! ### Reading a text back -/

theorem foldl_decimal (b : Bytes) : ∀ n : Nat, b.foldl (fun n d => 10 * n + (d.toNat - 48)) n = n * 10 ^ b.length + decimal b := by
  induction b using List.reverseRecOn with
  | nil => intro n; simp [decimal]
  | append_singleton b c ih =>
    intro n
    rw [decimal_append, List.foldl_append]
    simp only [List.foldl_cons, List.foldl_nil, List.length_append, List.length_singleton]
    rw [ih]
    ring

theorem decimal_concat (a b : Bytes) : decimal (a ++ b) = decimal a * 10 ^ b.length + decimal b := by
  conv_lhs => unfold decimal
  rw [List.foldl_append, foldl_decimal]
  rfl

theorem decimal_zeros : ∀ n : Nat, decimal (List.replicate n (c! '0')) = 0
  | 0 => rfl
  | n + 1 => by
    rw [List.replicate_succ', decimal_append, decimal_zeros n]
    rfl

theorem all_zeros (n : Nat) : All Digit (List.replicate n (c! '0')) := by
  intro c hc
  rw [List.eq_of_mem_replicate hc]
  exact ⟨by decide, by decide⟩

theorem all_append {p : UInt8 → Prop} {a b : Bytes} (ha : All p a) (hb : All p b) : All p (a ++ b) := by
  intro c hc
  rcases List.mem_append.1 hc with h | h
  · exact ha c h
  · exact hb c h

theorem digit_zero : Digit (c! '0') := ⟨by decide, by decide⟩

/-- Text with a point but no exponent. -/
theorem formatF_spec {ds : Bytes} (h : Digits ds) (dp : ℤ) : Unsigned (formatF ds dp) (decimal ds * 10 ^ (dp - ds.length)) 0 := by
  unfold formatF
  split
  · next hd =>
    obtain ⟨n, hn⟩ : ∃ n : Nat, dp = -(n : ℤ) := ⟨(-dp).toNat, by omega⟩
    have := Unsigned.point [c! '0'] (List.replicate n (c! '0') ++ ds) [] 0 (by simpa [All] using digit_zero)
      (all_append (all_zeros n) h.2) (by simp) .none
    have e0 : decimal [c! '0'] = 0 := rfl
    rw [decimal_concat, decimal_concat, e0, decimal_zeros, zero_mul, zero_mul, zero_add, zero_add] at this
    simp only [List.append_nil, List.singleton_append, List.length_append, List.length_replicate, zpow_zero, mul_one] at this
    rw [hn, neg_neg, Int.toNat_natCast]
    convert this using 1
    rw [show -(n : ℤ) - ds.length = -((n + ds.length : Nat) : ℤ) by push_cast; ring, zpow_neg, zpow_natCast, div_eq_mul_inv]
  · split
    · next h1 h2 =>
      obtain ⟨n, hn⟩ : ∃ n : Nat, dp = ds.length + n := ⟨(dp - ds.length).toNat, by omega⟩
      have := Unsigned.whole (ds ++ List.replicate n (c! '0')) [] 0 ⟨by simp [h.1], all_append h.2 (all_zeros n)⟩ .none
      rw [decimal_concat, decimal_zeros] at this
      simp only [List.append_nil, List.length_replicate, zpow_zero, mul_one, add_zero] at this
      rw [hn, show (ds.length : ℤ) + n - ds.length = n by ring, Int.toNat_natCast, zpow_natCast]
      convert this using 1
      push_cast
      rfl
    · next h1 h2 =>
      obtain ⟨n, hn⟩ : ∃ n : Nat, dp = n := ⟨dp.toNat, by omega⟩
      subst hn
      rw [Int.toNat_natCast]
      have := Unsigned.point (ds.take n) (ds.drop n) [] 0 (fun c hc => h.2 c (List.mem_of_mem_take hc))
        (fun c hc => h.2 c (List.mem_of_mem_drop hc)) (by rw [List.take_append_drop]; exact h.1) .none
      rw [List.take_append_drop, List.length_drop] at this
      simp only [List.append_nil, zpow_zero, mul_one] at this
      convert this using 1
      rw [show (n : ℤ) - ds.length = -((ds.length - n : Nat) : ℤ) by omega, zpow_neg, zpow_natCast, div_eq_mul_inv]

/-- Text with an exponent. -/
theorem formatE_spec {ds : Bytes} (h : Digits ds) (exp : ℤ) : Unsigned (formatE ds exp) (decimal ds * 10 ^ (exp + 1 - ds.length)) exp := by
  obtain ⟨n1, n2⟩ := natToBytes_spec exp.natAbs
  have hexp : Exp (c! 'e' :: (if exp < 0 then c! '-' else c! '+') ::
      (if (natToBytes exp.natAbs).length < 2 then c! '0' :: natToBytes exp.natAbs else natToBytes exp.natAbs)) exp := by
    have hd : Digits (if (natToBytes exp.natAbs).length < 2 then c! '0' :: natToBytes exp.natAbs else natToBytes exp.natAbs) ∧
        decimal (if (natToBytes exp.natAbs).length < 2 then c! '0' :: natToBytes exp.natAbs else natToBytes exp.natAbs) = exp.natAbs := by
      split
      · refine ⟨⟨by simp, all_append (a := [c! '0']) (by simpa [All] using digit_zero) n1.2⟩, ?_⟩
        have := decimal_concat [c! '0'] (natToBytes exp.natAbs)
        rw [n2, show decimal [c! '0'] = 0 from rfl, zero_mul, zero_add] at this
        exact this
      · exact ⟨n1, n2⟩
    generalize (if (natToBytes exp.natAbs).length < 2 then c! '0' :: natToBytes exp.natAbs else natToBytes exp.natAbs) = w at *
    split
    · next hn =>
      have := Exp.neg (c! 'e') w (Or.inl rfl) hd.1
      rwa [hd.2, show -((exp.natAbs : Nat) : ℤ) = exp by omega] at this
    · next hn =>
      have := Exp.pos (c! 'e') [c! '+'] w (Or.inl rfl) (Or.inr rfl) hd.1
      rwa [hd.2, show ((exp.natAbs : Nat) : ℤ) = exp by omega] at this
  unfold formatE
  simp only
  match ds, h with
  | [d], h =>
    have := Unsigned.whole [d] _ exp h hexp
    simpa using this
  | d :: c :: r, h =>
    have := Unsigned.point [d] (c :: r) _ exp (fun x hx => h.2 x (by simp at hx; simp [hx])) (fun x hx => h.2 x (by simp at hx ⊢; tauto)) (by simp) hexp
    convert this using 1
    · simp
    simp only [List.singleton_append, List.length_cons]
    rw [show exp + 1 - ((r.length + 1 + 1 : Nat) : ℤ) = exp + -((r.length + 1 : Nat) : ℤ) by push_cast; ring,
      zpow_add₀ (by norm_num), zpow_neg, zpow_natCast]
    field_simp

/-- The exponent of a float is not great. -/
theorem shortest_exponent {x : F64} (hf : x.Finite) (h0 : x.mag ≠ 0) :
    (((natToBytes (shortest x).1).length : ℤ) + (shortest x).2 - 1).natAbs < 100000 := by
  have hs := (shortest_spec hf h0).reads
  have hp := reads_pos hf h0 hs
  generalize (shortest x).1 = m at *
  generalize (shortest x).2 = e at *
  obtain ⟨h1, h2, h3⟩ := natToBytes_length hp
  generalize (natToBytes m).length = L at *
  have hq0 : (0 : ℚ) ≤ m * 10 ^ e := by positivity
  -- not too great
  have hu : (m : ℚ) * 10 ^ e < limit := by
    have := hs.overflow
    rw [(not_special hf).2, signedDec_eq, abs_sgn _ hq0] at this
    simpa using this
  have hu2 : (m : ℚ) * 10 ^ e < 10 ^ 1000 := by
    by_contra hc
    exact absurd (limit_le (not_lt.1 hc)) (not_le.2 hu)
  have hlow : (10 : ℚ) ^ ((L : ℤ) + e - 1) ≤ m * 10 ^ e := by
    rw [show (L : ℤ) + e - 1 = ((L - 1 : Nat) : ℤ) + e by omega, zpow_add₀ (by norm_num), zpow_natCast]
    refine mul_le_mul_of_nonneg_right ?_ (by positivity)
    exact_mod_cast h2
  have hhigh : (m : ℚ) * 10 ^ e < 10 ^ ((L : ℤ) + e) := by
    rw [zpow_add₀ (by norm_num), zpow_natCast]
    refine mul_lt_mul_of_pos_right ?_ (by positivity)
    exact_mod_cast h3
  have hA : (L : ℤ) + e - 1 < 1000 := by
    have : (10 : ℚ) ^ ((L : ℤ) + e - 1) < 10 ^ ((1000 : ℕ) : ℤ) := by
      rw [zpow_natCast]; exact lt_of_le_of_lt hlow hu2
    exact (zpow_lt_zpow_iff_right₀ (by norm_num)).1 this
  -- not too small
  have hB : -1000 ≤ (L : ℤ) + e - 1 := by
    by_contra hc
    have h4 : (m : ℚ) * 10 ^ e < 2 ^ (-1075 : ℤ) := by
      refine lt_trans (lt_of_lt_of_le hhigh ?_) tiny_lt
      rw [← zpow_natCast, ← zpow_neg]
      exact zpow_le_zpow_right₀ (by norm_num) (by push_cast; omega)
    have h5 : (0 : ℚ) < m * 10 ^ e := mul_pos (by exact_mod_cast hp) (by positivity)
    have h6 := rounds_tiny x.neg? h5 h4
    rw [signedDec_eq] at hs
    have := hs.unique h6 (by unfold sgn; split <;> linarith)
    apply h0
    rw [this]
    cases x.neg? <;> decide
  omega

/-- The text of a finite float denotes its shortest decimal. -/
theorem formatMag_spec {x : F64} (hf : x.Finite) (h0 : x.mag ≠ 0) :
    ∃ e, Unsigned (formatMag x) ((shortest x).1 * 10 ^ (shortest x).2) e ∧ e.natAbs < 100000 := by
  have hb := shortest_exponent hf h0
  unfold formatMag
  rw [if_neg h0]
  simp only
  obtain ⟨n1, n2⟩ := natToBytes_spec (shortest x).1
  split
  · refine ⟨_, ?_, hb⟩
    have := formatE_spec n1 (((natToBytes (shortest x).1).length : ℤ) + (shortest x).2 - 1)
    rw [n2] at this
    convert this using 3
    ring
  · refine ⟨0, ?_, by decide⟩
    have := formatF_spec n1 (((natToBytes (shortest x).1).length : ℤ) + (shortest x).2)
    rw [n2] at this
    convert this using 3
    ring

theorem fmtFloat_finite {x : F64} (hf : x.Finite) : fmtFloat x = if x.neg? then c! '-' :: formatMag x else formatMag x := by
  unfold fmtFloat
  rw [(not_special hf).1, (not_special hf).2]
  simp

theorem fmtFloat_ne {x : F64} (hf : x.Finite) : fmtFloat x ≠ [] := by
  have hm : formatMag x ≠ [] := by
    unfold formatMag
    split
    · simp
    · simp only
      split
      · simp [formatE]
      · unfold formatF
        have := (natToBytes_spec (shortest x).1).1.1
        split
        · simp
        · split <;> simp [this]
  rw [fmtFloat_finite hf]
  split
  · simp
  · exact hm

/-- The text of a finite float reads back as that float. -/
theorem parseFloat_fmtFloat (env : Env) {x : F64} (hf : x.Finite) : env.parseFloat (fmtFloat x) = some x := by
  have hval : ∃ q e, DecimalText (fmtFloat x) x.neg? q e ∧ Rounds q x ∧ e.natAbs < 100000 := by
    rw [fmtFloat_finite hf]
    by_cases h0 : x.mag = 0
    · have hu : Unsigned (formatMag x) 0 0 := by
        unfold formatMag
        rw [if_pos h0]
        have := Unsigned.whole [c! '0'] [] 0 ⟨by simp, by simpa [All] using digit_zero⟩ .none
        simpa [decimal] using this
      have hr := rounds_val hf
      have hz : x.val = 0 := by
        unfold val
        rw [h0, magVal_zero]
        simp
      rw [hz] at hr
      refine ⟨0, 0, ?_, hr, by decide⟩
      by_cases hn : x.neg? = true
      · rw [if_pos hn, hn]
        have := DecimalText.minus _ _ _ hu
        rwa [neg_zero] at this
      · rw [if_neg hn, eq_false_of_ne_true hn]
        exact .unsigned _ _ _ hu
    · obtain ⟨e, hu, he⟩ := formatMag_spec hf h0
      have hr := (shortest_spec hf h0).reads
      refine ⟨_, e, ?_, hr, he⟩
      unfold signedDec
      by_cases hn : x.neg? = true
      · rw [if_pos hn, if_pos hn, hn]
        exact .minus _ _ _ hu
      · rw [if_neg hn, if_neg hn, eq_false_of_ne_true hn]
        exact .unsigned _ _ _ hu
  obtain ⟨q, e, hd, hr, he⟩ := hval
  have hl : |q| < limit := by
    have := hr.overflow
    rw [(not_special hf).2] at this
    simpa using this
  obtain ⟨f, h1, h2, h3, h4⟩ := (parseFloat_decimal (env := env) hd (Or.inl he)).2 hl
  rw [h1]
  congr 1
  refine finite_eq h4 ?_
  have a := hr.nearest hf f h2
  have b := h3.nearest h2 x hf
  by_cases hq : q = 0
  · subst hq
    have c1 := rounds_val hf
    have z := h3.nearest h2 (F64.mk 0) (by unfold F64.Finite; decide)
    have z' := hr.nearest hf (F64.mk 0) (by unfold F64.Finite; decide)
    have hz : F64.val (F64.mk 0) = 0 := by
      unfold val
      rw [show (F64.mk 0).mag = 0 by decide, magVal_zero]
      simp
    rw [hz] at z z'
    simp only [sub_zero, abs_zero, abs_nonpos_iff] at z z'
    rw [z, z']
  · rw [hr.unique h3 hq]

end JP
