import Verif.Proof.Round
import Mathlib.Algebra.Order.Round
import Mathlib.Data.Int.Log
import Mathlib.Tactic.Linarith
import Mathlib.Tactic.FieldSimp
/-! Lemmas about quotients of integers of at most 53 bits: a rounded quotient is an integer only if the quotient is. -/
namespace JP
open F64

/-- There is a float within half a unit of the 53rd bit. -/
theorem near_float {q : ℚ} {e : ℤ} (h1 : (2 : ℚ) ^ e ≤ q) (h2 : q < 2 ^ (e + 1)) (he : -1000 ≤ e) (he' : e ≤ 1000) :
    ∃ m, m < infMag ∧ |magVal m - q| ≤ 2 ^ (e - 53) := by
  have hp : (0 : ℚ) < 2 ^ (e - 52) := by positivity
  have hq : 0 < q := lt_of_lt_of_le (by positivity) h1
  have hx0 : 0 < q / 2 ^ (e - 52) := by positivity
  have hx : q / 2 ^ (e - 52) < 2 ^ 53 := by
    rw [div_lt_iff₀ hp, ← zpow_natCast, ← zpow_add₀ (by norm_num)]
    calc q < 2 ^ (e + 1) := h2
      _ = _ := by congr 1; push_cast; ring
  generalize hxe : q / 2 ^ (e - 52) = x at hx hx0
  have hr := abs_sub_round x
  rw [abs_le] at hr
  have r0 : 0 ≤ round x := by
    have : (-1 : ℚ) < round x := by linarith [hr.2]
    have : (-1 : ℤ) < round x := by exact_mod_cast this
    omega
  have r1 : round x ≤ 2 ^ 53 := by
    have : ((round x : ℤ) : ℚ) < (2 ^ 53 + 1 : ℤ) := by push_cast; linarith [hr.1]
    have : round x < 2 ^ 53 + 1 := by exact_mod_cast this
    omega
  obtain ⟨k, hk⟩ := Int.eq_ofNat_of_zero_le r0
  have hk53 : k ≤ 2 ^ 53 := by omega
  obtain ⟨m, hm1, hm2⟩ := representable k (e - 52) hk53 (by omega) (by
    have : (k : ℚ) ≤ 2 ^ 53 := by exact_mod_cast hk53
    calc (k : ℚ) * 2 ^ (e - 52) ≤ 2 ^ 53 * 2 ^ (e - 52) := by gcongr
      _ = 2 ^ (e + 1) := by rw [← zpow_natCast, ← zpow_add₀ (by norm_num)]; congr 1; push_cast; ring
      _ < 2 ^ (1024 : ℤ) := zpow_lt_zpow_right₀ (by norm_num) (by omega)
      _ = 2 ^ 1024 := by rw [← zpow_natCast]; rfl)
  refine ⟨m, hm1, ?_⟩
  have hq' : q = x * 2 ^ (e - 52) := by rw [← hxe]; field_simp
  have hkx : (k : ℚ) = round x := by rw [hk]; simp
  rw [hm2, hq', ← sub_mul, abs_mul, abs_of_pos hp, hkx, abs_sub_comm]
  have := abs_sub_round x
  calc |x - round x| * 2 ^ (e - 52) ≤ 1 / 2 * 2 ^ (e - 52) := by gcongr
    _ = 2 ^ (e - 53) := by
      rw [show e - 52 = (e - 53) + 1 by ring, zpow_add_one₀ (by norm_num)]; ring

/-- If the rounded quotient of two integers of at most 53 bits is an integer, so is the quotient. -/
theorem quotient_integral {m n K : ℤ} (hm : m.natAbs ≤ 2 ^ 53) (hn : n.natAbs ≤ 2 ^ 53) (h0 : n ≠ 0) {z : F64}
    (hz : Rounds ((m : ℚ) / n) z) (hf : z.Finite) (hK : z.val = K) : n ∣ m := by
  by_cases hm0 : m = 0
  · subst hm0; exact dvd_zero _
  have hnq : (n : ℚ) ≠ 0 := by exact_mod_cast h0
  have hmq : (m : ℚ) ≠ 0 := by exact_mod_cast hm0
  generalize hq : (m : ℚ) / n = q at hz
  have hq0 : q ≠ 0 := by rw [← hq]; exact div_ne_zero hmq hnq
  have hap : 0 < |q| := abs_pos.2 hq0
  have hab : |q| * |(n : ℚ)| = |(m : ℚ)| := by rw [← abs_mul, ← hq, div_mul_cancel₀ _ hnq]
  have hm' : |(m : ℚ)| ≤ 2 ^ 53 := by rw [← Int.cast_abs, Int.abs_eq_natAbs]; exact_mod_cast hm
  have hn' : |(n : ℚ)| ≤ 2 ^ 53 := by rw [← Int.cast_abs, Int.abs_eq_natAbs]; exact_mod_cast hn
  have hm1 : 1 ≤ |(m : ℚ)| := by rw [← Int.cast_abs]; exact_mod_cast Int.one_le_abs hm0
  have hn1 : 1 ≤ |(n : ℚ)| := by rw [← Int.cast_abs]; exact_mod_cast Int.one_le_abs h0
  have e1 : (2 : ℚ) ^ Int.log 2 |q| ≤ |q| := by exact_mod_cast Int.zpow_log_le_self (by norm_num) hap
  have e2 : |q| < (2 : ℚ) ^ (Int.log 2 |q| + 1) := by exact_mod_cast Int.lt_zpow_succ_log_self (by norm_num) |q|
  generalize Int.log 2 |q| = e at e1 e2
  have qle : |q| ≤ 2 ^ (53 : ℤ) := by
    rw [zpow_ofNat]
    nlinarith
  have qge : (2 : ℚ) ^ (-53 : ℤ) ≤ |q| := by
    rw [zpow_neg, zpow_ofNat]
    rw [inv_le_iff_one_le_mul₀ (by norm_num)]
    nlinarith
  have he1 : e ≤ 53 := by
    have := lt_of_le_of_lt (le_trans e1 qle) (zpow_lt_zpow_right₀ (by norm_num : (1 : ℚ) < 2) (by norm_num : (53 : ℤ) < 54))
    have := (zpow_lt_zpow_iff_right₀ (by norm_num : (1 : ℚ) < 2)).1 this
    omega
  have he2 : -54 ≤ e := by
    have := (zpow_lt_zpow_iff_right₀ (by norm_num : (1 : ℚ) < 2)).1 (lt_of_le_of_lt qge e2)
    omega
  obtain ⟨g, g1, g2⟩ := near_float e1 e2 (by omega) (by omega)
  have hy : (mk' (decide (q < 0)) g).Finite := by unfold F64.Finite; rw [finite_mk' g1]; exact g1
  have near := hz.nearest hf _ hy
  have hyv : |(mk' (decide (q < 0)) g).val - q| ≤ 2 ^ (e - 53) := by
    unfold val
    rw [neg_mk', finite_mk' g1]
    by_cases hneg : q < 0
    · rw [decide_eq_true hneg, if_pos rfl]
      rw [abs_of_neg hneg] at g2
      rw [← abs_neg]
      convert g2 using 2
      ring
    · rw [decide_eq_false hneg, if_neg (by simp)]
      rw [abs_of_nonneg (not_lt.1 hneg)] at g2
      exact g2
  rw [hK] at near
  have dist := le_trans near hyv
  by_contra hd
  -- the distance of the quotient from an integer
  have hne : K * n - m ≠ 0 := by
    intro h
    exact hd ⟨K, by linarith⟩
  have h3 : 1 ≤ |((K : ℚ) - q) * n| := by
    have : ((K : ℚ) - q) * n = ((K * n - m : ℤ) : ℚ) := by
      rw [sub_mul, ← hq, div_mul_cancel₀ _ hnq]; push_cast; rfl
    rw [this, ← Int.cast_abs]
    exact_mod_cast Int.one_le_abs hne
  rw [abs_mul] at h3
  have p53 : (2 : ℚ) ^ (e - 53) * 2 ^ 53 = 2 ^ e := by
    rw [← zpow_natCast, ← zpow_add₀ (by norm_num)]; congr 1; push_cast; ring
  have pp : (0 : ℚ) < 2 ^ (e - 53) := by positivity
  -- so the divisor is large, and the dividend is 2^53
  have h4 : 1 ≤ 2 ^ (e - 53) * |(n : ℚ)| := le_trans h3 (by gcongr)
  have h5 : (2 : ℚ) ^ 53 ≤ 2 ^ e * |(n : ℚ)| := by
    rw [← p53]
    nlinarith
  have h6 : 2 ^ e * |(n : ℚ)| ≤ |q| * |(n : ℚ)| := by gcongr
  have h7 : |q| * |(n : ℚ)| = 2 ^ e * |(n : ℚ)| := le_antisymm (by linarith) h6
  have h8 : |q| = 2 ^ e := mul_right_cancel₀ (by positivity) h7
  rcases lt_or_ge e 0 with hneg | hpos
  · have : (2 : ℚ) ^ e < 1 := zpow_lt_one_of_neg₀ (by norm_num) hneg
    nlinarith
  · obtain ⟨k, rfl⟩ := Int.eq_ofNat_of_zero_le hpos
    rw [h8] at hab
    have : ((2 ^ k * |n| : ℤ) : ℚ) = ((|m| : ℤ) : ℚ) := by push_cast; rw [← hab]; simp
    have : 2 ^ k * |n| = |m| := by exact_mod_cast this
    exact hd ((abs_dvd_abs n m).1 ⟨2 ^ k, by rw [← this, mul_comm]⟩)

end JP
