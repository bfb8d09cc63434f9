import Verif.Spec.Float
import Verif.Proof.F64
import Mathlib.Data.Rat.Floor
import Mathlib.Tactic.Linarith
import Mathlib.Tactic.FieldSimp
import Mathlib.Tactic.Positivity
import Mathlib.Tactic.NormNum
import Mathlib.Tactic.Ring
/-! `F64.round` rounds to the nearest float, ties to even. -/
namespace JP.F64

/-! ### The values of bit patterns -/

theorem two_zpow_pos (e : ℤ) : (0 : ℚ) < 2 ^ e := by positivity

theorem magVal_of (e : ℤ) (k : Nat) (he : -1074 ≤ e) (hk : k ≤ 2 ^ 53) (h : 2 ^ 52 ≤ k ∨ e = -1074) :
    magVal ((e + 1074).toNat * 2 ^ 52 + k) = k * 2 ^ e := by
  obtain ⟨a, rfl⟩ : ∃ a : Nat, e = (a : ℤ) - 1074 := ⟨(e + 1074).toNat, by omega⟩
  have ha : ((a : ℤ) - 1074 + 1074).toNat = a := by omega
  rw [ha]
  unfold magVal
  by_cases h1 : k < 2 ^ 52
  · have : a = 0 := by omega
    subst this
    rw [if_pos (by omega)]; norm_num
  · rw [if_neg (by omega)]
    by_cases h2 : k = 2 ^ 53
    · subst h2
      have e1 : (a * 2 ^ 52 + 2 ^ 53) % 2 ^ 52 = 0 := by omega
      have e2 : (a * 2 ^ 52 + 2 ^ 53) / 2 ^ 52 = a + 2 := by omega
      rw [e1, e2]
      have : ((a + 2 : Nat) : ℤ) - 1075 = ((a : ℤ) - 1074) + 1 := by push_cast; ring
      rw [this, zpow_add_one₀ (by norm_num)]
      push_cast; ring
    · have e1 : (a * 2 ^ 52 + k) % 2 ^ 52 = k - 2 ^ 52 := by omega
      have e2 : (a * 2 ^ 52 + k) / 2 ^ 52 = a + 1 := by omega
      rw [e1, e2]
      have : ((a + 1 : Nat) : ℤ) - 1075 = ((a : ℤ) - 1074) := by push_cast; ring
      rw [this, show 2 ^ 52 + (k - 2 ^ 52) = k by omega]

/-- Every pattern is of the form in `magVal_of`. -/
theorem decompose (m : Nat) : ∃ (e : ℤ) (k : Nat), -1074 ≤ e ∧ k < 2 ^ 53 ∧ (2 ^ 52 ≤ k ∨ e = -1074) ∧
    m = (e + 1074).toNat * 2 ^ 52 + k := by
  by_cases h : m < 2 ^ 52
  · exact ⟨-1074, m, by omega, by omega, Or.inr rfl, by simp⟩
  · refine ⟨((m / 2 ^ 52 : Nat) : ℤ) - 1075, 2 ^ 52 + m % 2 ^ 52, by omega, by omega, Or.inl (by omega), ?_⟩
    have : (((m / 2 ^ 52 : Nat) : ℤ) - 1075 + 1074).toNat = m / 2 ^ 52 - 1 := by omega
    rw [this]; omega

theorem magVal_mono : StrictMono magVal := by
  refine strictMono_nat_of_lt_succ fun m => ?_
  obtain ⟨e, k, h1, h2, h3, rfl⟩ := decompose m
  rw [magVal_of e k h1 (by omega) h3, add_assoc, magVal_of e (k + 1) h1 (by omega) (by omega)]
  have := two_zpow_pos e
  push_cast
  nlinarith

theorem magVal_zero : magVal 0 = 0 := by simp [magVal]

theorem magVal_nonneg (m : Nat) : 0 ≤ magVal m := by
  have := magVal_mono.monotone (Nat.zero_le m)
  rwa [magVal_zero] at this

theorem magVal_inf : magVal infMag = 2 ^ 1024 := by
  have : infMag = ((971 : ℤ) + 1074).toNat * 2 ^ 52 + 2 ^ 53 := by decide
  rw [this, magVal_of _ _ (by omega) (by omega) (by omega), show (1024 : Nat) = 53 + 971 from rfl, pow_add,
    show ((971 : ℤ)) = ((971 : Nat) : ℤ) from rfl, zpow_natCast, Nat.cast_pow, Nat.cast_ofNat]

theorem magVal_max : magVal (infMag - 1) = 2 ^ 1024 - 2 ^ 971 := by
  have : infMag - 1 = ((971 : ℤ) + 1074).toNat * 2 ^ 52 + (2 ^ 53 - 1) := by decide
  rw [this, magVal_of _ _ (by omega) (by omega) (by omega), show (1024 : Nat) = 53 + 971 from rfl, pow_add,
    show ((971 : ℤ)) = ((971 : Nat) : ℤ) from rfl, zpow_natCast, Nat.cast_sub (by decide), Nat.cast_pow,
    Nat.cast_ofNat]
  ring

/-! ### Rounding a positive number -/

/-- `floor (log2 (n / d))`. -/
theorem ilog2_spec {n d : Nat} (hn : 0 < n) (hd : 0 < d) :
    (2 : ℚ) ^ ilog2 n d ≤ (n : ℚ) / d ∧ (n : ℚ) / d < 2 ^ (ilog2 n d + 1) := by
  have hn1 : 2 ^ n.log2 ≤ n := Nat.log2_self_le (by omega)
  have hn2 : n < 2 ^ (n.log2 + 1) := Nat.lt_log2_self
  have hd1 : 2 ^ d.log2 ≤ d := Nat.log2_self_le (by omega)
  have hd2 : d < 2 ^ (d.log2 + 1) := Nat.lt_log2_self
  have hdq : (0 : ℚ) < d := by exact_mod_cast hd
  have qn1 : (2 : ℚ) ^ (n.log2 : ℤ) ≤ n := by rw [zpow_natCast]; exact_mod_cast hn1
  have qn2 : (n : ℚ) < 2 ^ ((n.log2 : ℤ) + 1) := by
    rw [← Nat.cast_succ, zpow_natCast]; exact_mod_cast hn2
  have qd1 : (2 : ℚ) ^ (d.log2 : ℤ) ≤ d := by rw [zpow_natCast]; exact_mod_cast hd1
  have qd2 : (d : ℚ) < 2 ^ ((d.log2 : ℤ) + 1) := by
    rw [← Nat.cast_succ, zpow_natCast]; exact_mod_cast hd2
  generalize hl : (n.log2 : ℤ) - (d.log2 : ℤ) = l
  have up : (n : ℚ) / d < 2 ^ (l + 1) := by
    rw [div_lt_iff₀ hdq]
    have e : (2 : ℚ) ^ ((n.log2 : ℤ) + 1) = 2 ^ (l + 1) * 2 ^ (d.log2 : ℤ) := by
      rw [← zpow_add₀ (by norm_num)]; congr 1; omega
    rw [e] at qn2
    exact lt_of_lt_of_le qn2 (mul_le_mul_of_nonneg_left qd1 (two_zpow_pos _).le)
  have low : (2 : ℚ) ^ (l - 1) ≤ (n : ℚ) / d := by
    rw [le_div_iff₀ hdq]
    have e : (2 : ℚ) ^ (n.log2 : ℤ) = 2 ^ (l - 1) * 2 ^ ((d.log2 : ℤ) + 1) := by
      rw [← zpow_add₀ (by norm_num)]; congr 1; omega
    rw [e] at qn1
    exact le_trans (mul_le_mul_of_nonneg_left qd2.le (two_zpow_pos _).le) qn1
  have test : (if 0 ≤ l then d * 2 ^ l.toNat ≤ n else d ≤ n * 2 ^ (-l).toNat) ↔ (2 : ℚ) ^ l ≤ (n : ℚ) / d := by
    rw [le_div_iff₀ hdq]
    by_cases h0 : 0 ≤ l
    · rw [if_pos h0]
      obtain ⟨k, rfl⟩ := Int.eq_ofNat_of_zero_le h0
      rw [zpow_natCast, Int.toNat_natCast, mul_comm]
      exact_mod_cast Iff.rfl
    · rw [if_neg h0]
      obtain ⟨k, rfl⟩ : ∃ k : Nat, l = -(k : ℤ) := ⟨(-l).toNat, by omega⟩
      rw [neg_neg, Int.toNat_natCast, zpow_neg, zpow_natCast, inv_mul_le_iff₀ (by positivity), mul_comm]
      exact_mod_cast Iff.rfl
  have key : ilog2 n d = if (2 : ℚ) ^ l ≤ (n : ℚ) / d then l else l - 1 := by
    unfold ilog2
    simp only [hl]
    by_cases h0 : 0 ≤ l
    · rw [if_pos h0] at test ⊢
      simp only [test]
    · rw [if_neg h0] at test ⊢
      simp only [test]
  rw [key]
  by_cases hc : (2 : ℚ) ^ l ≤ (n : ℚ) / d
  · rw [if_pos hc]; exact ⟨hc, up⟩
  · rw [if_neg hc, sub_add_cancel]; exact ⟨low, lt_of_not_ge hc⟩

/-- The pattern that `round` computes for a positive number, before the test for overflow. -/
def roundMag (n d : Nat) : Nat :=
  let e : Int := max (-1074) (ilog2 n d - 52)
  let num := if 0 ≤ e then n else n * 2 ^ (-e).toNat
  let den := if 0 ≤ e then d * 2 ^ e.toNat else d
  let q := num / den
  let r := num % den
  let q' := if den < 2 * r ∨ (2 * r = den ∧ q % 2 = 1) then q + 1 else q
  (e + 1074).toNat * 2 ^ 52 + q'

theorem round_eq (s : Bool) {n : Nat} (d : Nat) (hn : 0 < n) :
    round s n d = if infMag ≤ roundMag n d then inf s else mk' s (roundMag n d) := by
  unfold round roundMag
  rw [if_neg (by omega)]

theorem roundMag_spec {n d : Nat} (hn : 0 < n) (hd : 0 < d) :
    (∀ k, |magVal (roundMag n d) - (n : ℚ) / d| ≤ |magVal k - (n : ℚ) / d|) ∧
    (∀ k, k ≠ roundMag n d → |magVal (roundMag n d) - (n : ℚ) / d| = |magVal k - (n : ℚ) / d| →
      roundMag n d % 2 = 0) := by
  obtain ⟨l1, l2⟩ := ilog2_spec hn hd
  have hdq : (0 : ℚ) < d := by exact_mod_cast hd
  unfold roundMag
  generalize hl : ilog2 n d = l at l1 l2
  generalize ht : (n : ℚ) / d = t at l1 l2
  simp only []
  generalize he : max (-1074) (l - 52) = e
  generalize hnum : (if 0 ≤ e then n else n * 2 ^ (-e).toNat) = num
  generalize hden : (if 0 ≤ e then d * 2 ^ e.toNat else d) = den
  have hE := two_zpow_pos e
  have hden0 : 0 < den := by
    rw [← hden]; split <;> positivity
  have hden0q : (0 : ℚ) < den := by exact_mod_cast hden0
  have hdiv : (num : ℚ) / den = t / 2 ^ e := by
    rw [← hnum, ← hden, ← ht]
    by_cases h0 : 0 ≤ e
    · rw [if_pos h0, if_pos h0]
      obtain ⟨k, rfl⟩ := Int.eq_ofNat_of_zero_le h0
      rw [Int.toNat_natCast, zpow_natCast]
      push_cast
      field_simp
    · rw [if_neg h0, if_neg h0]
      obtain ⟨k, rfl⟩ : ∃ k : Nat, e = -(k : ℤ) := ⟨(-e).toNat, by omega⟩
      rw [neg_neg, Int.toNat_natCast, zpow_neg, zpow_natCast]
      push_cast
      field_simp
  generalize hq : num / den = q
  generalize hr : num % den = r
  have hqr : num = den * q + r := by rw [← hq, ← hr]; exact (Nat.div_add_mod _ _).symm
  have hrd : r < den := by rw [← hr]; exact Nat.mod_lt _ hden0
  have hte : t = ((q : ℚ) + (r : ℚ) / den) * 2 ^ e := by
    have : (num : ℚ) / den = q + (r : ℚ) / den := by
      rw [hqr]; push_cast; field_simp
    rw [← this, hdiv]; field_simp
  have hf0 : (0 : ℚ) ≤ (r : ℚ) / den := by positivity
  have hf1 : (r : ℚ) / den < 1 := by rw [div_lt_one hden0q]; exact_mod_cast hrd
  have hge : -1074 ≤ e := by omega
  -- the quotient has at most 53 bits, and exactly 53 unless the exponent is the least
  have hq53 : q < 2 ^ 53 := by
    have a1 : (q : ℚ) * 2 ^ e ≤ t := by rw [hte]; nlinarith
    have a2 : t < 2 ^ ((53 : ℤ) + e) := lt_of_lt_of_le l2 (zpow_le_zpow_right₀ (by norm_num) (by omega))
    rw [zpow_add₀ (by norm_num)] at a2
    have a3 : (q : ℚ) < 2 ^ (53 : ℤ) := lt_of_mul_lt_mul_right (lt_of_le_of_lt a1 a2) hE.le
    have : (q : ℚ) < (2 ^ 53 : Nat) := by rw [Nat.cast_pow]; exact_mod_cast a3
    exact_mod_cast this
  have hq52 : 2 ^ 52 ≤ q ∨ e = -1074 := by
    by_cases h : e = -1074
    · exact Or.inr h
    · left
      have hel : e = l - 52 := by omega
      have a1 : (2 : ℚ) ^ ((52 : ℤ) + e) ≤ t := by
        rw [hel, show (52 : ℤ) + (l - 52) = l by ring]; exact l1
      rw [zpow_add₀ (by norm_num), hte] at a1
      have a2 : (2 : ℚ) ^ (52 : ℤ) ≤ (q : ℚ) + (r : ℚ) / den := le_of_mul_le_mul_right a1 hE
      have a3 : (2 : ℚ) ^ (52 : ℤ) < ((q + 1 : Nat) : ℚ) := by push_cast; linarith
      have a4 : ((2 ^ 52 : Nat) : ℚ) < ((q + 1 : Nat) : ℚ) := by rw [Nat.cast_pow]; exact_mod_cast a3
      have : 2 ^ 52 < q + 1 := by exact_mod_cast a4
      omega
  have vlo := magVal_of e q hge (by omega) hq52
  have vhi := magVal_of e (q + 1) hge (by omega) (by omega)
  rw [← add_assoc] at vhi
  obtain ⟨m0, hm0⟩ : ∃ m0, (e + 1074).toNat * 2 ^ 52 + q = m0 := ⟨_, rfl⟩
  rw [hm0] at vlo vhi
  have hpar : m0 % 2 = q % 2 := by omega
  push_cast at vhi
  -- two neighbours, with `t` from the first up to the second
  have below : ∀ k, k ≤ m0 → magVal k ≤ magVal m0 := fun k h => magVal_mono.monotone h
  have above : ∀ k, m0 < k → magVal (m0 + 1) ≤ magVal k := fun k h => magVal_mono.monotone h
  have tlo : t - magVal m0 = (r : ℚ) / den * 2 ^ e := by rw [hte, vlo]; ring
  have thi : magVal (m0 + 1) - t = (1 - (r : ℚ) / den) * 2 ^ e := by rw [hte, vhi]; ring
  have tlo0 : 0 ≤ t - magVal m0 := by rw [tlo]; positivity
  have thi0 : 0 < magVal (m0 + 1) - t := by rw [thi]; exact mul_pos (by linarith) hE
  by_cases hup : den < 2 * r ∨ (2 * r = den ∧ q % 2 = 1)
  · rw [if_pos hup]
    rw [show (e + 1074).toNat * 2 ^ 52 + (q + 1) = m0 + 1 by omega]
    have habs : |magVal (m0 + 1) - t| = magVal (m0 + 1) - t := abs_of_pos thi0
    have hhalf : (1 : ℚ) / 2 ≤ (r : ℚ) / den := by
      rw [div_le_div_iff₀ (by norm_num) hden0q]
      have : den ≤ 2 * r := by omega
      have : (den : ℚ) ≤ 2 * r := by exact_mod_cast this
      linarith
    have hle : magVal (m0 + 1) - t ≤ t - magVal m0 := by
      rw [thi, tlo]; exact mul_le_mul_of_nonneg_right (by linarith) hE.le
    refine ⟨fun k => ?_, fun k hk heq => ?_⟩
    · rw [habs]
      rcases Nat.lt_or_ge m0 k with h | h
      · exact le_trans (by linarith [above k h]) (le_abs_self _)
      · exact le_trans (by linarith [below k h]) (neg_le_abs _)
    · rw [habs] at heq
      rcases Nat.lt_or_ge m0 k with h | h
      · exfalso
        have : magVal (m0 + 1) < magVal k := magVal_mono (by omega)
        have := le_abs_self (magVal k - t)
        linarith
      · have b := below k h
        have hk2 : |magVal k - t| = t - magVal k := by rw [abs_of_nonpos (by linarith)]; ring
        rw [hk2] at heq
        have heq2 : magVal (m0 + 1) - t = t - magVal m0 := by linarith
        rw [thi, tlo] at heq2
        have heq3 : 1 - (r : ℚ) / den = (r : ℚ) / den := mul_right_cancel₀ hE.ne' heq2
        have heq4 : 2 * (r : ℚ) = den := by field_simp at heq3; linarith
        have : 2 * r = den := by exact_mod_cast heq4
        omega
  · rw [if_neg hup, hm0]
    have habs : |magVal m0 - t| = t - magVal m0 := by rw [abs_of_nonpos (by linarith)]; ring
    have hhalf : (r : ℚ) / den ≤ 1 / 2 := by
      rw [div_le_div_iff₀ hden0q (by norm_num)]
      have : 2 * r ≤ den := by omega
      have : (2 * r : ℚ) ≤ den := by exact_mod_cast this
      linarith
    have hle : t - magVal m0 ≤ magVal (m0 + 1) - t := by
      rw [thi, tlo]; exact mul_le_mul_of_nonneg_right (by linarith) hE.le
    refine ⟨fun k => ?_, fun k hk heq => ?_⟩
    · rw [habs]
      rcases Nat.lt_or_ge m0 k with h | h
      · exact le_trans (by linarith [above k h]) (le_abs_self _)
      · exact le_trans (by linarith [below k h]) (neg_le_abs _)
    · rw [habs] at heq
      rcases Nat.lt_or_ge m0 k with h | h
      · have b := above k h
        have hk2 : |magVal k - t| = magVal k - t := abs_of_pos (by linarith)
        rw [hk2] at heq
        have heq2 : t - magVal m0 = magVal (m0 + 1) - t := by linarith
        rw [thi, tlo] at heq2
        have heq3 : (r : ℚ) / den = 1 - (r : ℚ) / den := mul_right_cancel₀ hE.ne' heq2
        have heq4 : 2 * (r : ℚ) = den := by field_simp at heq3; linarith
        have : 2 * r = den := by exact_mod_cast heq4
        omega
      · exfalso
        have : magVal k < magVal m0 := magVal_mono (by omega)
        have := neg_le_abs (magVal k - t)
        linarith

theorem roundMag_overflow {n d : Nat} (hn : 0 < n) (hd : 0 < d) :
    infMag ≤ roundMag n d ↔ limit ≤ (n : ℚ) / d := by
  obtain ⟨h1, h2⟩ := roundMag_spec hn hd
  generalize roundMag n d = m at h1 h2
  generalize (n : ℚ) / d = t at h1 h2
  have two : (2 : ℚ) ^ 971 = 2 * 2 ^ 970 := by rw [show (971 : Nat) = 970 + 1 from rfl, pow_succ, mul_comm]
  have pos : (0 : ℚ) < 2 ^ 970 := by positivity
  have hmax := magVal_max
  have hinf := magVal_inf
  have hlim : limit = 2 ^ 1024 - 2 ^ 970 := rfl
  rw [hlim]
  rw [two] at hmax
  generalize (2 : ℚ) ^ 970 = a at pos hmax hlim ⊢
  generalize (2 : ℚ) ^ 1024 = b at hinf hmax hlim ⊢
  constructor
  · intro hm
    by_contra hlt
    rw [not_le] at hlt
    have b1 : b ≤ magVal m := by rw [← hinf]; exact magVal_mono.monotone hm
    have b2 := h1 (infMag - 1)
    rw [hmax, abs_of_pos (by linarith)] at b2
    rcases abs_cases (b - 2 * a - t) with ⟨e, _⟩ | ⟨e, _⟩ <;> rw [e] at b2 <;> linarith
  · intro ht
    by_contra hm
    rw [not_le] at hm
    have b1 : magVal m ≤ b - 2 * a := by rw [← hmax]; exact magVal_mono.monotone (by omega)
    have b2 := h1 infMag
    rw [hinf, abs_of_neg (by linarith)] at b2
    rcases abs_cases (b - t) with ⟨e, _⟩ | ⟨e, _⟩
    · rw [e] at b2
      have hv : magVal m = magVal (infMag - 1) := by rw [hmax]; linarith
      have hmm : m = infMag - 1 := magVal_mono.injective hv
      have b3 := h2 infMag (by omega) (by rw [hinf, e, abs_of_neg (by linarith)]; linarith)
      rw [hmm] at b3
      exact absurd b3 (by decide)
    · rw [e] at b2; linarith

/-! ### Rounding any number -/

theorem abs_val (x : F64) : |x.val| = magVal x.mag := by
  unfold val
  split
  · rw [abs_neg, abs_of_nonneg (magVal_nonneg _)]
  · rw [abs_of_nonneg (magVal_nonneg _)]

theorem finite_mk' {s : Bool} {m : Nat} (h : m < infMag) : (mk' s m).mag = m := by
  rw [mag_mk', Nat.mod_eq_of_lt (lt_trans h infMag_lt)]

theorem val_mk' {s : Bool} {m : Nat} (h : m < infMag) : (mk' s m).val = if s then -magVal m else magVal m := by
  unfold val; rw [neg_mk', finite_mk' h]

theorem limit_pos : 0 < limit := by
  unfold limit
  rw [show (1024 : Nat) = 54 + 970 from rfl, pow_add]
  have : (0 : ℚ) < 2 ^ 970 := by positivity
  generalize (2 : ℚ) ^ 970 = a at this
  norm_num
  linarith

/-- `round` is right about the number of sign `s` and magnitude `n/d`. -/
theorem rounds_round (s : Bool) (n : Nat) {d : Nat} (hd : 0 < d) :
    Rounds (if s then -((n : ℚ) / d) else (n : ℚ) / d) (round s n d) ∧ (round s n d).neg? = s := by
  have hdq : (0 : ℚ) < d := by exact_mod_cast hd
  rcases Nat.eq_zero_or_pos n with rfl | hn
  · have hr : round s 0 d = mk' s 0 := by simp [round]
    have h0 : (0 : Nat) < infMag := by decide
    have hv : (mk' s 0).val = 0 := by rw [val_mk' h0, magVal_zero]; simp
    rw [hr]
    refine ⟨?_, neg_mk' _ _⟩
    have hq : (if s = true then -(((0 : Nat) : ℚ) / d) else ((0 : Nat) : ℚ) / d) = 0 := by simp
    rw [hq]
    refine ⟨?_, ?_, fun h => absurd h (lt_irrefl _), fun h => absurd h (lt_irrefl _), fun _ y _ => ?_,
      fun _ _ _ _ _ => ?_⟩
    · simp [isNaN, finite_mk' h0]
    · simp only [isInf, finite_mk' h0, abs_zero]
      constructor
      · intro h; exact absurd h (by decide)
      · intro h
        linarith [limit_pos]
    · rw [hv, sub_zero, abs_zero]; exact abs_nonneg _
    · rw [finite_mk' h0]
  · have ht : (0 : ℚ) < (n : ℚ) / d := div_pos (by exact_mod_cast hn) hdq
    obtain ⟨h1, h2⟩ := roundMag_spec hn hd
    have h3 := roundMag_overflow hn hd
    rw [round_eq s d hn]
    have habs : |if s then -((n : ℚ) / d) else (n : ℚ) / d| = (n : ℚ) / d := by
      cases s <;> simp [abs_of_pos ht]
    generalize (n : ℚ) / d = t at ht h1 h2 h3 habs
    generalize roundMag n d = m at h1 h2 h3
    have hsign : ∀ x : F64, x.neg? = s →
        ((if s then -t else t) < 0 → x.neg? = true) ∧ (0 < (if s then -t else t) → x.neg? = false) := by
      intro x hx
      rw [hx]
      cases s
      · simp; linarith
      · simp; linarith
    by_cases hm : infMag ≤ m
    · rw [if_pos hm]
      refine ⟨⟨?_, ?_, (hsign _ (neg_inf s)).1, (hsign _ (neg_inf s)).2, fun h => ?_, fun h => ?_⟩, neg_inf s⟩
      · simp [isNaN, mag_inf]
      · rw [habs]; simp [isInf, mag_inf]; exact h3.1 hm
      · exact absurd h (by simp [Finite, mag_inf])
      · exact absurd h (by simp [Finite, mag_inf])
    · rw [if_neg hm]
      have hm' : m < infMag := by omega
      -- distances are those of the magnitudes, or more
      have hx : |(mk' s m).val - (if s then -t else t)| = |magVal m - t| := by
        rw [val_mk' hm']
        cases s
        · simp
        · simp only [if_true]; rw [← abs_neg]; congr 1; ring
      have hy : ∀ y : F64, |magVal y.mag - t| ≤ |y.val - (if s then -t else t)| := by
        intro y
        have := abs_abs_sub_abs_le y.val (if s then -t else t)
        rwa [abs_val, habs] at this
      refine ⟨⟨?_, ?_, (hsign _ (neg_mk' s m)).1, (hsign _ (neg_mk' s m)).2, fun _ y _ => ?_,
        fun _ y _ hne heq => ?_⟩, neg_mk' s m⟩
      · simp [isNaN, finite_mk' hm']; omega
      · rw [habs, ← h3]; simp [isInf, finite_mk' hm']; omega
      · rw [hx]; exact le_trans (h1 _) (hy y)
      · rw [finite_mk' hm']
        rw [hx] at heq
        have e1 : |magVal m - t| = |magVal y.mag - t| := le_antisymm (h1 _) (by rw [heq]; exact hy y)
        refine h2 y.mag (fun hmm => ?_) e1
        -- the same magnitude with the other sign is farther
        apply hne
        rw [val_mk' hm']
        rw [hmm] at e1
        unfold val at heq ⊢
        rw [hmm] at heq ⊢
        have hpos := magVal_nonneg m
        cases hs : s <;> cases hn : y.neg? <;> simp [hs, hn] at heq ⊢
        · rcases abs_cases (magVal m - t) with ⟨a, _⟩ | ⟨a, _⟩ <;>
            rcases abs_cases (-magVal m - t) with ⟨b, _⟩ | ⟨b, _⟩ <;> rw [a, b] at heq <;> linarith
        · rcases abs_cases (magVal m - t) with ⟨a, _⟩ | ⟨a, _⟩ <;>
            rcases abs_cases (magVal m + t) with ⟨b, _⟩ | ⟨b, _⟩ <;> rw [a, b] at heq <;> linarith

/-- Rounding has one result, but for the sign of zero. -/
theorem Rounds.unique {q : ℚ} {x y : F64} (hx : Rounds q x) (hy : Rounds q y) (hq : q ≠ 0) : x = y := by
  have hs : x.neg? = y.neg? := by
    rcases lt_or_gt_of_ne hq with h | h
    · rw [hx.negative h, hy.negative h]
    · rw [hx.positive h, hy.positive h]
  have fin : ∀ z : F64, z.isNaN = false → z.isInf = false → z.Finite := by
    intro z h1 h2
    simp [isNaN, isInf, Finite] at *
    omega
  by_cases hi : limit ≤ |q|
  · have a := hx.overflow.2 hi
    have b := hy.overflow.2 hi
    refine ext_mag hs ?_
    simp [isInf] at a b
    omega
  · have fx := fin x hx.not_nan (by rw [Bool.eq_false_iff]; exact fun h => hi (hx.overflow.1 h))
    have fy := fin y hy.not_nan (by rw [Bool.eq_false_iff]; exact fun h => hi (hy.overflow.1 h))
    have heq : |x.val - q| = |y.val - q| := le_antisymm (hx.nearest fx y fy) (hy.nearest fy x fx)
    have hmag : x.val = y.val → x = y := by
      intro h
      refine ext_mag hs ?_
      have := congrArg abs h
      rw [abs_val, abs_val] at this
      exact magVal_mono.injective this
    by_contra hne
    have hv : x.val ≠ y.val := fun h => hne (hmag h)
    have e1 := hx.even fx y fy hv.symm heq
    have e2 := hy.even fy x fx hv heq.symm
    -- two even neighbours have an odd float between them, which is nearer
    have hmm : x.mag ≠ y.mag := fun h => hne (ext_mag hs h)
    have main : ∀ a b : F64, a.neg? = b.neg? → a.Finite → b.Finite → a.mag < b.mag → a.mag % 2 = 0 → b.mag % 2 = 0 →
        (∀ z : F64, z.Finite → |a.val - q| ≤ |z.val - q|) → |a.val - q| = |b.val - q| → False := by
      intro a b hab fa fb hlt ea eb hn he
      have hc : a.mag + 1 < infMag := by unfold Finite at fb; omega
      have h1 : magVal a.mag < magVal (a.mag + 1) := magVal_mono (by omega)
      have h2 : magVal (a.mag + 1) < magVal b.mag := magVal_mono (by omega)
      have h3 := hn (mk' a.neg? (a.mag + 1)) (by unfold Finite; rw [finite_mk' hc]; exact hc)
      rw [val_mk' hc] at h3
      unfold val at h3 he
      rw [← hab] at he
      cases hsg : a.neg? <;> simp only [hsg, if_true, Bool.false_eq_true, if_false] at h3 he
      · rcases abs_cases (magVal a.mag - q) with ⟨p, _⟩ | ⟨p, _⟩ <;>
          rcases abs_cases (magVal b.mag - q) with ⟨p', _⟩ | ⟨p', _⟩ <;>
          rcases abs_cases (magVal (a.mag + 1) - q) with ⟨p'', _⟩ | ⟨p'', _⟩ <;>
          rw [p, p'] at he <;> rw [p, p''] at h3 <;> linarith
      · rcases abs_cases (-magVal a.mag - q) with ⟨p, _⟩ | ⟨p, _⟩ <;>
          rcases abs_cases (-magVal b.mag - q) with ⟨p', _⟩ | ⟨p', _⟩ <;>
          rcases abs_cases (-magVal (a.mag + 1) - q) with ⟨p'', _⟩ | ⟨p'', _⟩ <;>
          rw [p, p'] at he <;> rw [p, p''] at h3 <;> linarith
    rcases Nat.lt_or_gt_of_ne hmm with h | h
    · exact main x y hs fx fy h e1 e2 (hx.nearest fx) heq
    · exact main y x hs.symm fy fx h e2 e1 (hy.nearest fy) heq.symm

/-! ### The operations -/

theorem val_man (x : F64) : magVal x.mag = x.man * 2 ^ x.expo := by
  unfold magVal man expo
  split
  · rfl
  · rw [add_comm]; rfl

theorem val_sman (x : F64) : x.val = x.sman * 2 ^ x.expo := by
  unfold val sman
  rw [val_man]
  split <;> push_cast <;> ring

theorem natAbs_cast (z : ℤ) : ((z.natAbs : Nat) : ℚ) = |(z : ℚ)| := by
  rw [Nat.cast_natAbs, Int.cast_abs]

/-- `roundZ` rounds `z * 2^e`. -/
theorem rounds_roundZ (zs : Bool) (z e : ℤ) :
    Rounds (z * 2 ^ e) (roundZ zs z e) ∧ (z = 0 → (roundZ zs z e).neg? = zs) := by
  unfold roundZ
  by_cases hz : z = 0
  · subst hz
    simp only [if_true]
    have := rounds_round zs 0 (d := 1) one_pos
    simp [round] at this
    refine ⟨?_, fun _ => neg_mk' _ _⟩
    simpa using this.1
  · rw [if_neg hz]
    refine ⟨?_, fun h => absurd h hz⟩
    have key : ∀ a : ℚ, 0 ≤ a → (if decide (z < 0) = true then -(|(z : ℚ)| * a) else |(z : ℚ)| * a) = z * a := by
      intro a _
      by_cases h : z < 0
      · have : (z : ℚ) < 0 := by exact_mod_cast h
        simp [h, abs_of_neg this]
      · have : (0 : ℚ) ≤ z := by exact_mod_cast not_lt.1 h
        simp [h, abs_of_nonneg this]
    by_cases he : 0 ≤ e
    · rw [if_pos he]
      obtain ⟨k, rfl⟩ := Int.eq_ofNat_of_zero_le he
      have := (rounds_round (decide (z < 0)) (z.natAbs * 2 ^ (k : ℤ).toNat) (d := 1) one_pos).1
      rw [Nat.cast_mul, natAbs_cast, Nat.cast_one, div_one, key _ (by positivity)] at this
      rw [zpow_natCast]
      rw [Int.toNat_natCast] at this ⊢
      push_cast at this
      exact this
    · rw [if_neg he]
      obtain ⟨k, rfl⟩ : ∃ k : Nat, e = -(k : ℤ) := ⟨(-e).toNat, by omega⟩
      have := (rounds_round (decide (z < 0)) z.natAbs (d := 2 ^ k) (by positivity)).1
      rw [natAbs_cast, div_eq_mul_inv, key _ (by positivity)] at this
      rw [neg_neg, Int.toNat_natCast, zpow_neg, zpow_natCast]
      push_cast at this
      exact this

theorem not_special {x : F64} (h : x.Finite) : x.isNaN = false ∧ x.isInf = false := by
  unfold Finite at h
  simp [isNaN, isInf]
  omega

theorem zpow_toNat {e f : ℤ} (h : f ≤ e) : (2 : ℚ) ^ (e - f).toNat * 2 ^ f = 2 ^ e := by
  rw [← zpow_natCast, ← zpow_add₀ (by norm_num)]
  congr 1; omega

theorem rounds_fadd {x y : F64} (hx : x.Finite) (hy : y.Finite) : Rounds (x.val + y.val) (fadd x y) := by
  obtain ⟨x1, x2⟩ := not_special hx
  obtain ⟨y1, y2⟩ := not_special hy
  simp only [fadd, x1, x2, y1, y2, Bool.or_self, Bool.false_eq_true, if_false]
  have := (rounds_roundZ (x.neg? && y.neg?)
    (x.sman * 2 ^ (x.expo - min x.expo y.expo).toNat + y.sman * 2 ^ (y.expo - min x.expo y.expo).toNat)
    (min x.expo y.expo)).1
  push_cast at this
  rw [add_mul, mul_assoc, mul_assoc, zpow_toNat (min_le_left _ _), zpow_toNat (min_le_right _ _), ← val_sman,
    ← val_sman] at this
  exact this

/-- A sum that is exactly zero is `+0`, unless both operands are `-0`. -/
theorem fadd_zero_sign {x y : F64} (hx : x.Finite) (hy : y.Finite) (h : x.val + y.val = 0) :
    (fadd x y).neg? = (x.neg? && y.neg?) := by
  obtain ⟨x1, x2⟩ := not_special hx
  obtain ⟨y1, y2⟩ := not_special hy
  simp only [fadd, x1, x2, y1, y2, Bool.or_self, Bool.false_eq_true, if_false]
  refine (rounds_roundZ _ _ _).2 ?_
  have e : ((x.sman * 2 ^ (x.expo - min x.expo y.expo).toNat + y.sman * 2 ^ (y.expo - min x.expo y.expo).toNat : ℤ) : ℚ) *
      2 ^ (min x.expo y.expo) = 0 := by
    push_cast
    rw [add_mul, mul_assoc, mul_assoc, zpow_toNat (min_le_left _ _), zpow_toNat (min_le_right _ _), ← val_sman,
      ← val_sman, h]
  rcases mul_eq_zero.1 e with e | e
  · exact_mod_cast e
  · exact absurd e (two_zpow_pos _).ne'

theorem val_fneg (x : F64) : x.fneg.val = -x.val := by
  unfold val
  rw [neg_fneg, mag_fneg]
  cases x.neg? <;> simp

theorem finite_fneg {x : F64} (h : x.Finite) : x.fneg.Finite := by
  unfold Finite; rw [mag_fneg]; exact h

theorem rounds_fsub {x y : F64} (hx : x.Finite) (hy : y.Finite) : Rounds (x.val - y.val) (fsub x y) := by
  unfold fsub
  rw [(not_special hy).1]
  simp only [Bool.false_eq_true, if_false]
  have := rounds_fadd hx (finite_fneg hy)
  rwa [val_fneg, ← sub_eq_add_neg] at this

theorem signed_mul (a b : Bool) (p q : ℚ) :
    (if a then -p else p) * (if b then -q else q) = if (a != b) then -(p * q) else p * q := by
  cases a <;> cases b <;> simp

theorem signed_div (a b : Bool) (p q : ℚ) :
    (if a then -p else p) / (if b then -q else q) = if (a != b) then -(p / q) else p / q := by
  cases a <;> cases b <;> simp [neg_div, div_neg]

/-- Rounding the magnitude `a * 2^e / b`. -/
theorem rounds_scaled (s : Bool) (a : Nat) {b : Nat} (hb : 0 < b) (e : ℤ) :
    Rounds (if s then -((a : ℚ) / b * 2 ^ e) else (a : ℚ) / b * 2 ^ e)
      (if 0 ≤ e then round s (a * 2 ^ e.toNat) b else round s a (b * 2 ^ (-e).toNat)) ∧
    (if 0 ≤ e then round s (a * 2 ^ e.toNat) b else round s a (b * 2 ^ (-e).toNat)).neg? = s := by
  by_cases he : 0 ≤ e
  · rw [if_pos he]
    have := rounds_round s (a * 2 ^ e.toNat) hb
    obtain ⟨k, rfl⟩ := Int.eq_ofNat_of_zero_le he
    rw [Int.toNat_natCast] at this ⊢
    rw [zpow_natCast]
    push_cast at this
    rwa [mul_div_right_comm] at this
  · rw [if_neg he]
    obtain ⟨k, rfl⟩ : ∃ k : Nat, e = -(k : ℤ) := ⟨(-e).toNat, by omega⟩
    have := rounds_round s a (d := b * 2 ^ k) (by positivity)
    rw [neg_neg, Int.toNat_natCast, zpow_neg, zpow_natCast]
    push_cast at this
    rwa [← div_div, div_eq_mul_inv ((a : ℚ) / b)] at this

theorem rounds_fmul {x y : F64} (hx : x.Finite) (hy : y.Finite) :
    Rounds (x.val * y.val) (fmul x y) ∧ (fmul x y).neg? = (x.neg? != y.neg?) := by
  obtain ⟨x1, x2⟩ := not_special hx
  obtain ⟨y1, y2⟩ := not_special hy
  simp only [fmul, x1, x2, y1, y2, Bool.or_self, Bool.false_eq_true, if_false]
  have := rounds_scaled (x.neg? != y.neg?) (x.man * y.man) one_pos (x.expo + y.expo)
  rw [Nat.one_mul] at this
  unfold val
  rw [signed_mul, val_man, val_man]
  have e : (x.man : ℚ) * 2 ^ x.expo * (y.man * 2 ^ y.expo) =
      ((x.man * y.man : Nat) : ℚ) / (1 : Nat) * 2 ^ (x.expo + y.expo) := by
    rw [zpow_add₀ (by norm_num)]; push_cast; ring
  rw [e]
  exact this

theorem mag_pos_man {y : F64} (h : y.mag ≠ 0) : 0 < y.man := by
  unfold man; split <;> omega

theorem rounds_fdiv {x y : F64} (hx : x.Finite) (hy : y.Finite) (h0 : y.mag ≠ 0) :
    Rounds (x.val / y.val) (fdiv x y) ∧ (fdiv x y).neg? = (x.neg? != y.neg?) := by
  obtain ⟨x1, x2⟩ := not_special hx
  obtain ⟨y1, y2⟩ := not_special hy
  simp only [fdiv, x1, x2, y1, y2, h0, Bool.or_self, Bool.false_eq_true, if_false]
  have hp : (0 : ℚ) < y.man := by exact_mod_cast mag_pos_man h0
  have := rounds_scaled (x.neg? != y.neg?) x.man (mag_pos_man h0) (x.expo - y.expo)
  unfold val
  rw [signed_div, val_man, val_man]
  have e : (x.man : ℚ) * 2 ^ x.expo / (y.man * 2 ^ y.expo) = (x.man : ℚ) / y.man * 2 ^ (x.expo - y.expo) := by
    rw [zpow_sub₀ (by norm_num)]
    have := two_zpow_pos y.expo
    field_simp
  rw [e]
  exact this

theorem rounds_ofInt (n : ℤ) : Rounds n (ofInt n) := by
  have := (rounds_round (decide (n < 0)) n.natAbs one_pos).1
  unfold ofInt
  rw [natAbs_cast, Nat.cast_one, div_one] at this
  have e : (if decide (n < 0) = true then -|(n : ℚ)| else |(n : ℚ)|) = n := by
    by_cases h : n < 0
    · have : (n : ℚ) < 0 := by exact_mod_cast h
      simp [h, abs_of_neg this]
    · have : (0 : ℚ) ≤ n := by exact_mod_cast not_lt.1 h
      simp [h, abs_of_nonneg this]
  rwa [e] at this

/-- A number that some finite float stands for rounds to that float. -/
theorem val_lt_limit {z : F64} (hz : z.Finite) : |z.val| < limit := by
  rw [abs_val]
  have h1 : magVal z.mag ≤ magVal (infMag - 1) := magVal_mono.monotone (by unfold Finite at hz; omega)
  rw [magVal_max] at h1
  have two : (2 : ℚ) ^ 971 = 2 * 2 ^ 970 := by rw [show (971 : Nat) = 970 + 1 from rfl, pow_succ, mul_comm]
  have pos : (0 : ℚ) < 2 ^ 970 := by positivity
  unfold limit
  rw [two] at h1
  clear two
  generalize (2 : ℚ) ^ 970 = a at *
  generalize (2 : ℚ) ^ 1024 = b at *
  linarith

theorem Rounds.exact {q : ℚ} {x z : F64} (h : Rounds q x) (hz : z.Finite) (hv : z.val = q) :
    x.Finite ∧ x.val = q := by
  have hlim : ¬ limit ≤ |q| := by
    rw [not_le, ← hv]
    exact val_lt_limit hz
  have hf : x.Finite := by
    have h1 := h.not_nan
    have h2 : x.isInf = false := by rw [Bool.eq_false_iff]; exact fun e => hlim (h.overflow.1 e)
    simp [isNaN, isInf, Finite] at *
    omega
  refine ⟨hf, ?_⟩
  have := h.nearest hf z hz
  rw [hv, sub_self, abs_zero] at this
  have := abs_nonpos_iff.1 this
  linarith

/-- A number of the form `k * 2^e` with at most 53 bits that is not too small is that of a float. -/
theorem representable (k : Nat) (e : ℤ) (hk : k ≤ 2 ^ 53) (he : -1074 ≤ e) (hm : (k : ℚ) * 2 ^ e < 2 ^ 1024) :
    ∃ m, m < infMag ∧ magVal m = k * 2 ^ e := by
  -- double `k` until it has 53 bits or the exponent is the least
  have : ∀ (j : Nat) (k : Nat) (e : ℤ), k ≤ 2 ^ 53 → e = j - 1074 → ∃ m, magVal m = k * 2 ^ e := by
    intro j
    induction j with
    | zero =>
      intro k e h1 h2
      exact ⟨k, by rw [← magVal_of e k (by omega) h1 (Or.inr (by omega)), show (e + 1074).toNat = 0 by omega]; simp⟩
    | succ j ih =>
      intro k e h1 h2
      by_cases h3 : 2 ^ 52 ≤ k
      · exact ⟨_, magVal_of e k (by omega) h1 (Or.inl h3)⟩
      · obtain ⟨m, hm⟩ := ih (2 * k) (e - 1) (by omega) (by omega)
        refine ⟨m, ?_⟩
        rw [hm, zpow_sub_one₀ (by norm_num)]
        push_cast; ring
  obtain ⟨m, h⟩ := this (e + 1074).toNat k e hk (by omega)
  refine ⟨m, ?_, h⟩
  by_contra hc
  have : magVal infMag ≤ magVal m := magVal_mono.monotone (by omega)
  rw [magVal_inf, h] at this
  exact absurd (lt_of_le_of_lt this hm) (lt_irrefl _)

theorem man_le (x : F64) : x.man < 2 ^ 53 := by
  unfold man; split <;> omega

theorem expo_ge (x : F64) : -1074 ≤ x.expo := by
  unfold expo; split <;> omega

theorem magVal_lt {x : F64} (h : x.Finite) : magVal x.mag < 2 ^ 1024 := by
  rw [← magVal_inf]; exact magVal_mono h

/-- A rounding of a magnitude that is exact. -/
theorem round_exact (s : Bool) (a : Nat) (e : ℤ) (k : Nat) (f : ℤ) (hk : k ≤ 2 ^ 53) (hf : -1074 ≤ f)
    (hv : (a : ℚ) * 2 ^ e = k * 2 ^ f) (hm : (a : ℚ) * 2 ^ e < 2 ^ 1024) (x : F64)
    (hx : x = if 0 ≤ e then round s (a * 2 ^ e.toNat) 1 else round s a (2 ^ (-e).toNat)) :
    x.Finite ∧ x.val = (if s then -((a : ℚ) * 2 ^ e) else (a : ℚ) * 2 ^ e) ∧ x.neg? = s := by
  obtain ⟨m, h1, h2⟩ := representable k f hk hf (by rw [← hv]; exact hm)
  have := rounds_scaled s a one_pos e
  rw [Nat.one_mul, Nat.cast_one, div_one, ← hx] at this
  have := this.1.exact (z := mk' s m) (by unfold Finite; rw [finite_mk' h1]; exact h1)
    (by rw [val_mk' h1, h2, hv])
  exact ⟨this.1, this.2, by
    have := (rounds_scaled s a one_pos e).2
    rw [Nat.one_mul, ← hx] at this
    exact this⟩

theorem fmod_spec {x y : F64} (hx : x.Finite) (hy : y.Finite) (h0 : y.mag ≠ 0) :
    (fmod x y).Finite ∧ (fmod x y).neg? = x.neg? ∧ |(fmod x y).val| < |y.val| ∧
    ∃ k : ℤ, x.val = k * y.val + (fmod x y).val := by
  obtain ⟨x1, x2⟩ := not_special hx
  obtain ⟨y1, y2⟩ := not_special hy
  obtain ⟨e, he⟩ : ∃ e, min x.expo y.expo = e := ⟨_, rfl⟩
  obtain ⟨a, ha⟩ : ∃ a, x.man * 2 ^ (x.expo - e).toNat = a := ⟨_, rfl⟩
  obtain ⟨b, hb⟩ : ∃ b, y.man * 2 ^ (y.expo - e).toNat = b := ⟨_, rfl⟩
  have hdef : fmod x y = if 0 ≤ e then round x.neg? (a % b * 2 ^ e.toNat) 1
      else round x.neg? (a % b) (2 ^ (-e).toNat) := by
    simp only [fmod, x1, x2, y1, y2, h0, Bool.or_self, Bool.false_eq_true, if_false, decide_false, he, ha, hb]
  have hva : (a : ℚ) * 2 ^ e = magVal x.mag := by
    rw [← ha, val_man]; push_cast
    rw [mul_assoc, zpow_toNat (by omega)]
  have hvb : (b : ℚ) * 2 ^ e = magVal y.mag := by
    rw [← hb, val_man]; push_cast
    rw [mul_assoc, zpow_toNat (by omega)]
  have hE := two_zpow_pos e
  have hbpos : 0 < b := by rw [← hb]; exact Nat.mul_pos (mag_pos_man h0) (by positivity)
  have hle : ((a % b : Nat) : ℚ) * 2 ^ e ≤ magVal x.mag := by
    rw [← hva]
    exact mul_le_mul_of_nonneg_right (by exact_mod_cast Nat.mod_le a b) hE.le
  have hk : a % b ≤ 2 ^ 53 := by
    rcases min_choice x.expo y.expo with h | h
    · have : a = x.man := by rw [← ha, ← he, h]; simp
      have := man_le x; have := Nat.mod_le a b; omega
    · have : b = y.man := by rw [← hb, ← he, h]; simp
      have := man_le y; have := Nat.mod_lt a hbpos; omega
  obtain ⟨r1, r2, r3⟩ := round_exact x.neg? (a % b) e (a % b) e hk (by have := expo_ge x; have := expo_ge y; omega) rfl
    (lt_of_le_of_lt hle (magVal_lt hx)) _ hdef
  refine ⟨r1, r3, ?_, ?_⟩
  · rw [r2, abs_val, ← hvb]
    have h1 : |if x.neg? = true then -(((a % b : Nat) : ℚ) * 2 ^ e) else ((a % b : Nat) : ℚ) * 2 ^ e| =
        ((a % b : Nat) : ℚ) * 2 ^ e := by
      have : (0 : ℚ) ≤ ((a % b : Nat) : ℚ) * 2 ^ e := by positivity
      split
      · rw [abs_neg, abs_of_nonneg this]
      · rw [abs_of_nonneg this]
    rw [h1]
    exact mul_lt_mul_of_pos_right (by exact_mod_cast Nat.mod_lt a hbpos) hE
  · have hdm : (a : ℚ) = (b : ℚ) * ((a / b : Nat) : ℚ) + ((a % b : Nat) : ℚ) := by
      exact_mod_cast (Nat.div_add_mod a b).symm
    rw [r2]
    unfold val
    rw [← hva, ← hvb]
    refine ⟨(if x.neg? != y.neg? then -((a / b : Nat) : ℤ) else ((a / b : Nat) : ℤ)), ?_⟩
    generalize ((a % b : Nat) : ℚ) = r at hdm ⊢
    generalize a / b = t at hdm ⊢
    rw [hdm]
    cases x.neg? <;> cases y.neg? <;> simp <;> ring

/-! ### Integer parts -/

theorem truncMag_spec (x : F64) : (x.truncMag : ℚ) ≤ magVal x.mag ∧ magVal x.mag < x.truncMag + 1 ∧
    (x.hasFrac = false ↔ magVal x.mag = x.truncMag) := by
  rw [val_man]
  unfold truncMag hasFrac
  by_cases h : 0 ≤ x.expo
  · simp only [if_pos h]
    generalize x.expo = e at h
    obtain ⟨k, rfl⟩ := Int.eq_ofNat_of_zero_le h
    rw [Int.toNat_natCast, zpow_natCast]
    push_cast
    simp
  · simp only [if_neg h]
    generalize x.man = m
    generalize x.expo = e at h
    obtain ⟨k, rfl⟩ : ∃ k : Nat, e = -(k : ℤ) := ⟨(-e).toNat, by omega⟩
    rw [neg_neg, Int.toNat_natCast, zpow_neg, zpow_natCast, ← div_eq_mul_inv]
    have hp : (0 : ℚ) < 2 ^ k := by positivity
    have hd : (m : ℚ) = 2 ^ k * ((m / 2 ^ k : Nat) : ℚ) + ((m % 2 ^ k : Nat) : ℚ) := by
      exact_mod_cast (Nat.div_add_mod m (2 ^ k)).symm
    have hlt : ((m % 2 ^ k : Nat) : ℚ) < 2 ^ k := by exact_mod_cast Nat.mod_lt m (by positivity)
    have h0 : (0 : ℚ) ≤ ((m % 2 ^ k : Nat) : ℚ) := by positivity
    refine ⟨?_, ?_, ?_⟩
    · rw [le_div_iff₀ hp]; linarith
    · rw [div_lt_iff₀ hp]; linarith
    · rw [div_eq_iff hp.ne']
      constructor
      · intro h
        have : m % 2 ^ k = 0 := by simpa using h
        rw [this] at hd
        push_cast at hd
        linarith
      · intro h
        have : ((m % 2 ^ k : Nat) : ℚ) = 0 := by linarith
        have : m % 2 ^ k = 0 := by exact_mod_cast this
        simp [this]

theorem truncMag_le {x : F64} (h : x.expo < 0) : x.truncMag < 2 ^ 53 := by
  unfold truncMag
  rw [if_neg (by omega)]
  exact lt_of_le_of_lt (Nat.div_le_self _ _) (man_le x)

/-- Rounding the integer part `n` of a finite float, or the integer after it. -/
theorem round_int {x : F64} (hx : x.Finite) (s : Bool) (n : Nat)
    (hn : n = x.truncMag ∨ (x.hasFrac = true ∧ n = x.truncMag + 1)) :
    (round s n 1).Finite ∧ (round s n 1).val = (if s then -(n : ℚ) else (n : ℚ)) ∧ (round s n 1).neg? = s := by
  have hr : round s n 1 = if (0 : ℤ) ≤ 0 then round s (n * 2 ^ (0 : ℤ).toNat) 1 else round s n (2 ^ (-0 : ℤ).toNat) := by
    simp
  have h64 : (2 : ℚ) ^ 54 ≤ 2 ^ 1024 := pow_le_pow_right₀ (by norm_num) (by norm_num)
  by_cases h : 0 ≤ x.expo
  · have hf : x.hasFrac = false := by unfold hasFrac; rw [if_pos h]
    have hnt : n = x.truncMag := by
      rcases hn with h | ⟨h, _⟩
      · exact h
      · rw [hf] at h; cases h
    have hv : (n : ℚ) = magVal x.mag := by rw [hnt]; exact ((truncMag_spec x).2.2.1 hf).symm
    have := round_exact s n 0 x.man x.expo (man_le x).le (by omega) (by rw [zpow_zero, mul_one, hv, val_man])
      (by rw [zpow_zero, mul_one, hv]; exact magVal_lt hx) _ hr
    rwa [zpow_zero, mul_one] at this
  · have hb := truncMag_le (not_le.1 h)
    have hn53 : n ≤ 2 ^ 53 := by omega
    have := round_exact s n 0 n 0 hn53 (by omega) rfl (by
      rw [zpow_zero, mul_one]
      have : (n : ℚ) ≤ 2 ^ 53 := by exact_mod_cast hn53
      refine lt_of_lt_of_le (lt_of_le_of_lt this ?_) h64
      norm_num) _ hr
    rwa [zpow_zero, mul_one] at this

theorem trunc_spec {x : F64} {n : ℤ} (h : x.IntegralPart n) : x.trunc = n := by
  obtain ⟨t1, t2, -⟩ := truncMag_spec x
  have hp := magVal_nonneg x.mag
  rw [h.part]
  unfold trunc val
  cases hs : x.neg?
  · simp only [Bool.false_eq_true, if_false, if_pos hp]
    rw [eq_comm, Int.floor_eq_iff]
    exact ⟨by exact_mod_cast t1, by exact_mod_cast t2⟩
  · simp only [if_true]
    by_cases hz : magVal x.mag = 0
    · have : x.truncMag = 0 := by
        rw [hz] at t1
        exact_mod_cast le_antisymm t1 (by positivity)
      simp [hz, this]
    · have : ¬ (0 ≤ -magVal x.mag) := by
        have := lt_of_le_of_ne hp (Ne.symm hz)
        linarith
      rw [if_neg this, eq_comm, Int.ceil_eq_iff]
      push_cast
      exact ⟨by linarith, by linarith⟩

theorem floor_spec {x : F64} (hx : x.Finite) :
    x.floor.Finite ∧ x.floor.val = (⌊x.val⌋ : ℤ) ∧ x.floor.neg? = x.neg? := by
  obtain ⟨x1, x2⟩ := not_special hx
  obtain ⟨t1, t2, t3⟩ := truncMag_spec x
  have hdef : x.floor = round x.neg? (if x.neg? && x.hasFrac then x.truncMag + 1 else x.truncMag) 1 := by
    simp [floor, x1, x2]
  obtain ⟨n, hn⟩ : ∃ n, (if x.neg? && x.hasFrac then x.truncMag + 1 else x.truncMag) = n := ⟨_, rfl⟩
  rw [hn] at hdef
  obtain ⟨r1, r2, r3⟩ := round_int hx x.neg? n (by
    rw [← hn]
    cases hs : x.neg? <;> cases hf : x.hasFrac <;> simp)
  rw [hdef]
  refine ⟨r1, ?_, r3⟩
  rw [r2]
  have goal : ⌊x.val⌋ = (if x.neg? then -(n : ℤ) else (n : ℤ)) := by
    rw [Int.floor_eq_iff]
    unfold val
    cases hs : x.neg? <;> cases hf : x.hasFrac <;> simp [hs, hf] at hn ⊢ <;> subst hn
    · exact ⟨t1, t2⟩
    · exact ⟨t1, t2⟩
    · rw [t3.1 hf]; exact ⟨le_refl _, by linarith⟩
    · refine ⟨by push_cast; linarith, ?_⟩
      have : magVal x.mag ≠ x.truncMag := fun h => by rw [t3.2 h] at hf; cases hf
      have : (x.truncMag : ℚ) < magVal x.mag := lt_of_le_of_ne t1 (Ne.symm this)
      push_cast; linarith
  rw [goal]
  split <;> push_cast <;> rfl

theorem ceil_spec {x : F64} (hx : x.Finite) :
    x.ceil.Finite ∧ x.ceil.val = (⌈x.val⌉ : ℤ) ∧ x.ceil.neg? = x.neg? := by
  obtain ⟨x1, x2⟩ := not_special hx
  obtain ⟨t1, t2, t3⟩ := truncMag_spec x
  have hdef : x.ceil = round x.neg? (if !x.neg? && x.hasFrac then x.truncMag + 1 else x.truncMag) 1 := by
    simp [ceil, x1, x2]
  obtain ⟨n, hn⟩ : ∃ n, (if !x.neg? && x.hasFrac then x.truncMag + 1 else x.truncMag) = n := ⟨_, rfl⟩
  rw [hn] at hdef
  obtain ⟨r1, r2, r3⟩ := round_int hx x.neg? n (by
    rw [← hn]
    cases hs : x.neg? <;> cases hf : x.hasFrac <;> simp)
  rw [hdef]
  refine ⟨r1, ?_, r3⟩
  rw [r2]
  have goal : ⌈x.val⌉ = (if x.neg? then -(n : ℤ) else (n : ℤ)) := by
    rw [Int.ceil_eq_iff]
    unfold val
    cases hs : x.neg? <;> cases hf : x.hasFrac <;> simp [hs, hf] at hn ⊢ <;> subst hn
    · rw [t3.1 hf]; exact ⟨by linarith, le_refl _⟩
    · have : magVal x.mag ≠ x.truncMag := fun h => by rw [t3.2 h] at hf; cases hf
      have : (x.truncMag : ℚ) < magVal x.mag := lt_of_le_of_ne t1 (Ne.symm this)
      push_cast
      exact ⟨by linarith, by linarith⟩
    · exact ⟨by linarith, t1⟩
    · exact ⟨by linarith, t1⟩
  rw [goal]
  split <;> push_cast <;> rfl

/-! ### Comparison -/

theorem key_le_iff (x y : F64) : x.key ≤ y.key ↔ x.val ≤ y.val := by
  have hx := magVal_nonneg x.mag
  have hy := magVal_nonneg y.mag
  have zero : ∀ m : Nat, magVal m = 0 ↔ m = 0 := fun m => by
    rw [← magVal_zero]; exact magVal_mono.injective.eq_iff
  have le : ∀ m n : Nat, magVal m ≤ magVal n ↔ m ≤ n := fun m n => magVal_mono.le_iff_le
  have z1 := zero x.mag
  have z2 := zero y.mag
  unfold key val
  cases x.neg? <;> cases y.neg? <;> simp only [if_true, Bool.false_eq_true, if_false]
  · rw [le]; omega
  · constructor
    · intro h
      rw [z1.2 (by omega), z2.2 (by omega)]; simp
    · intro h
      have a := z1.1 (by linarith)
      have b := z2.1 (by linarith)
      omega
  · constructor
    · intro _; linarith
    · intro _; omega
  · rw [neg_le_neg_iff, neg_le_neg_iff, le]; omega

theorem key_lt_iff (x y : F64) : x.key < y.key ↔ x.val < y.val := by
  rw [← not_le, ← not_le, key_le_iff]

theorem key_eq_iff (x y : F64) : x.key = y.key ↔ x.val = y.val := by
  rw [le_antisymm_iff, le_antisymm_iff, key_le_iff, key_le_iff]

end JP.F64
