import Verif.Spec.Total
import Verif.Proof.Round
/-!
Rounding keeps the order of integers, and is one-to-one on those of at most 53 bits.
-/
namespace JP.F64

theorem rounds_mono {q r : ℚ} {x y : F64} (hx : Rounds q x) (hy : Rounds r y) (fx : x.Finite) (fy : y.Finite) (h : q ≤ r) :
    x.val ≤ y.val := by
  by_contra hc
  rw [not_le] at hc
  have h1 := hx.nearest fx y fy
  have h2 := hy.nearest fy x fx
  rcases abs_cases (x.val - q) with ⟨a1, a2⟩ | ⟨a1, a2⟩ <;> rcases abs_cases (y.val - q) with ⟨b1, b2⟩ | ⟨b1, b2⟩ <;>
    rcases abs_cases (x.val - r) with ⟨c1, c2⟩ | ⟨c1, c2⟩ <;> rcases abs_cases (y.val - r) with ⟨d1, d2⟩ | ⟨d1, d2⟩ <;>
    rw [a1, b1] at h1 <;> rw [c1, d1] at h2 <;> first | (exfalso; linarith) | skip
  all_goals
    have e : q = r := by linarith
    subst e
    by_cases hz : q = 0
    · subst hz
      have zf : zero.Finite := by unfold Finite; decide
      have zv : zero.val = 0 := by unfold val; rw [show zero.mag = 0 by decide, magVal_zero]; simp
      have e1 := (hx.exact zf zv).2
      have e2 := (hy.exact zf zv).2
      linarith
    · have := Rounds.unique hx hy hz
      subst this
      linarith

theorem ofInt_finite (n : ℤ) (h : n.natAbs ≤ 2 ^ 63) : (ofInt n).Finite := by
  have hr := rounds_ofInt n
  have hl : ¬ limit ≤ |(n : ℚ)| := by
    rw [not_le, ← natAbs_cast]
    have h1 : ((n.natAbs : Nat) : ℚ) ≤ ((2 ^ 63 : Nat) : ℚ) := by exact_mod_cast h
    have h2 : ((2 ^ 63 : Nat) : ℚ) < limit := by
      unfold limit
      have h3 : (2 : ℚ) ^ 1024 = 2 ^ 54 * 2 ^ 970 := by rw [← pow_add]
      have h4 : (2 : ℚ) ^ 970 = 2 ^ 63 * 2 ^ 907 := by rw [← pow_add]
      have h5 : (1 : ℚ) ≤ 2 ^ 907 := one_le_pow₀ (by norm_num)
      rw [h3, h4]
      push_cast
      clear h3 h4
      generalize (2 : ℚ) ^ 907 = a at *
      norm_num
      linarith
    exact lt_of_le_of_lt h1 h2
  have h1 := hr.not_nan
  have h2 : (ofInt n).isInf = false := by rw [Bool.eq_false_iff]; exact fun e => hl (hr.overflow.1 e)
  simp [isNaN, isInf, Finite] at *
  omega

theorem ofInt_mono {m n : ℤ} (hm : m.natAbs ≤ 2 ^ 63) (hn : n.natAbs ≤ 2 ^ 63) (h : m ≤ n) : (ofInt m).key ≤ (ofInt n).key := by
  rw [key_le_iff]
  exact rounds_mono (rounds_ofInt m) (rounds_ofInt n) (ofInt_finite m hm) (ofInt_finite n hn) (by exact_mod_cast h)

theorem ofInt_exact {n : ℤ} (h1 : -2 ^ 53 ≤ n) (h2 : n ≤ 2 ^ 53) : (ofInt n).val = n := by
  have hk : n.natAbs ≤ 2 ^ 53 := by omega
  obtain ⟨m, hm, hv⟩ := representable n.natAbs 0 hk (by norm_num) (by
    have : ((n.natAbs : Nat) : ℚ) ≤ ((2 ^ 53 : Nat) : ℚ) := by exact_mod_cast hk
    have two : ((2 ^ 53 : Nat) : ℚ) < 2 ^ 1024 := by
      rw [Nat.cast_pow, Nat.cast_ofNat]
      exact pow_lt_pow_right₀ (by norm_num : (1 : ℚ) < 2) (by norm_num : 53 < 1024)
    rw [zpow_zero, mul_one]
    exact lt_of_le_of_lt this two)
  refine ((rounds_ofInt n).exact (z := mk' (decide (n < 0)) m) ?_ ?_).2
  · unfold Finite; rw [finite_mk' hm]; exact hm
  · rw [val_mk' hm, hv, natAbs_cast]
    by_cases h : n < 0
    · have : (n : ℚ) < 0 := by exact_mod_cast h
      simp [h, abs_of_neg this]
    · have : (0 : ℚ) ≤ n := by exact_mod_cast not_lt.1 h
      simp [h, abs_of_nonneg this]

end JP.F64
