import Verif.Model.F64
/-! Facts about the floating-point numbers of the model. -/
namespace JP.F64

theorem mk'_toNat (s : Bool) (m : Nat) : (mk' s m).bits.toNat = m % 2 ^ 63 + if s then 2 ^ 63 else 0 := by
  unfold mk'
  simp only [UInt64.toNat_ofNat']
  have : m % 2 ^ 63 < 2 ^ 63 := Nat.mod_lt _ (by decide)
  cases s <;> simp <;> omega

theorem mag_mk' (s : Bool) (m : Nat) : (mk' s m).mag = m % 2 ^ 63 := by
  unfold mag
  rw [mk'_toNat]
  cases s <;> simp

theorem neg_mk' (s : Bool) (m : Nat) : (mk' s m).neg? = s := by
  unfold neg?
  rw [mk'_toNat]
  have : m % 2 ^ 63 < 2 ^ 63 := Nat.mod_lt _ (by decide)
  cases s <;> simp <;> omega

theorem infMag_lt : infMag < 2 ^ 63 := by decide

theorem mag_inf (s : Bool) : (inf s).mag = infMag := by
  unfold inf; rw [mag_mk', Nat.mod_eq_of_lt infMag_lt]

theorem neg_inf (s : Bool) : (inf s).neg? = s := neg_mk' s _

/-- Two floats with the same sign and magnitude are the same. -/
theorem ext_mag {x y : F64} (h1 : x.neg? = y.neg?) (h2 : x.mag = y.mag) : x = y := by
  unfold neg? mag at *
  have hx := x.bits.toNat_lt
  have hy := y.bits.toNat_lt
  have : x.bits.toNat = y.bits.toNat := by
    have := decide_eq_decide.1 h1
    omega
  cases x; cases y
  simp only [mk.injEq]
  exact UInt64.toNat_inj.1 this

theorem mag_fneg (x : F64) : x.fneg.mag = x.mag := by
  unfold fneg; rw [mag_mk']
  unfold mag; simp

theorem neg_fneg (x : F64) : x.fneg.neg? = !x.neg? := neg_mk' _ _

/-- Unary minus flips the sign only. -/
theorem fneg_fneg (x : F64) : x.fneg.fneg = x :=
  ext_mag (by simp [neg_fneg]) (by simp [mag_fneg])

theorem key_fneg (x : F64) : x.fneg.key = -x.key := by
  unfold key
  rw [neg_fneg, mag_fneg]
  cases x.neg? <;> simp

theorem isNaN_fneg (x : F64) : x.fneg.isNaN = x.isNaN := by
  unfold isNaN; rw [mag_fneg]

theorem key_zero : zero.key = 0 := by decide
theorem nan_zero : zero.isNaN = false := by decide
theorem nan_one : one.isNaN = false := by decide
theorem nan_nan : nan.isNaN = true := by decide

/-! ### Comparison -/

theorem feq_iff {x y : F64} : x.feq y = true ↔ x.isNaN = false ∧ y.isNaN = false ∧ x.key = y.key := by
  simp [feq, and_assoc]

theorem flt_iff {x y : F64} : x.flt y = true ↔ x.isNaN = false ∧ y.isNaN = false ∧ x.key < y.key := by
  simp [flt, and_assoc]

theorem fle_iff {x y : F64} : x.fle y = true ↔ x.isNaN = false ∧ y.isNaN = false ∧ x.key ≤ y.key := by
  simp [fle, and_assoc]

theorem feq_comm (x y : F64) : x.feq y = y.feq x := by
  rw [Bool.eq_iff_iff, feq_iff, feq_iff]
  constructor <;> rintro ⟨h1, h2, h3⟩ <;> exact ⟨h2, h1, h3.symm⟩

theorem feq_self {x : F64} : x.feq x = true ↔ x.isNaN = false := by
  rw [feq_iff]; simp

theorem feq_left {x y z : F64} (h : x.feq y = true) : x.feq z = y.feq z := by
  rw [feq_iff] at h
  obtain ⟨h1, h2, h3⟩ := h
  simp [feq, h1, h2, h3]

theorem feq_nan_left {x y : F64} (h : x.isNaN = true) : x.feq y = false := by simp [feq, h]
theorem feq_nan_right {x y : F64} (h : y.isNaN = true) : x.feq y = false := by simp [feq, h]

/-- The two zeros are the only values equal to zero. -/
theorem feq_zero {x : F64} : x.feq .zero = true ↔ x = .zero ∨ x = fneg .zero := by
  rw [feq_iff, key_zero]
  constructor
  · rintro ⟨_, _, h⟩
    have hm : x.mag = 0 := by
      unfold key at h; split at h <;> omega
    cases hn : x.neg?
    · exact .inl (ext_mag (by rw [hn]; rfl) (by rw [hm]; rfl))
    · exact .inr (ext_mag (by rw [hn]; rfl) (by rw [hm]; rfl))
  · rintro (rfl | rfl) <;> decide

/-! ### Conversion of integers -/

theorem ilog2_one {n : Nat} (h : n ≠ 0) : ilog2 n 1 = n.log2 := by
  unfold ilog2
  have h1 : Nat.log2 1 = 0 := by decide
  simp only [h1, Int.natCast_zero, Int.sub_zero, Int.natCast_nonneg, if_true, Int.toNat_natCast, Nat.one_mul]
  rw [if_pos (Nat.log2_self_le h)]

theorem round_cases (s : Bool) (n d : Nat) : ∃ m, round s n d = if infMag ≤ m then inf s else mk' s m := by
  unfold round
  by_cases h : n = 0
  · exact ⟨0, by rw [if_pos h]; rfl⟩
  · exact ⟨_, by rw [if_neg h]⟩

theorem round_neg (s : Bool) (n d : Nat) : (round s n d).neg? = s := by
  obtain ⟨m, h⟩ := round_cases s n d
  rw [h]
  split <;> exact neg_mk' _ _

theorem round_mag_le (s : Bool) (n d : Nat) : (round s n d).mag ≤ infMag := by
  obtain ⟨m, h⟩ := round_cases s n d
  rw [h]
  split
  · rw [mag_inf]; exact Nat.le_refl _
  · rename_i h
    have := infMag_lt
    rw [mag_mk', Nat.mod_eq_of_lt (by omega)]
    omega

/-- Rounding never gives NaN. -/
theorem round_not_nan (s : Bool) (n d : Nat) : (round s n d).isNaN = false := by
  unfold isNaN
  have := round_mag_le s n d
  simp; omega

/-- An integer at least 2^L rounds to something at least 2^L. -/
theorem round_int_ge (s : Bool) {n L : Nat} (hL : 2 ^ L ≤ n) (hb : L ≤ 1023) :
    (L + 1023) * 2 ^ 52 ≤ (round s n 1).mag := by
  have hn : n ≠ 0 := by
    have := Nat.two_pow_pos L; omega
  have hlog : L ≤ n.log2 := (Nat.le_log2 hn).2 hL
  have hself := Nat.log2_self_le hn
  have hI : infMag = 2047 * 2 ^ 52 := rfl
  have hq0 : ∀ k : Nat, 2 ^ k ≤ n → 2 ^ 52 ≤ (if (0 : Int) ≤ (k : Int) - 52 then n else n * 2 ^ (-((k : Int) - 52)).toNat) /
      (if (0 : Int) ≤ (k : Int) - 52 then 1 * 2 ^ ((k : Int) - 52).toNat else 1) := by
    intro k hself
    by_cases he : (0 : Int) ≤ (k : Int) - 52
    · rw [if_pos he, if_pos he]
      have : ((k : Int) - 52).toNat = k - 52 := by omega
      rw [this, Nat.one_mul, Nat.le_div_iff_mul_le (Nat.two_pow_pos _), ← Nat.pow_add]
      rw [show 52 + (k - 52) = k by omega]
      exact hself
    · rw [if_neg he, if_neg he]
      have : (-((k : Int) - 52)).toNat = 52 - k := by omega
      rw [this, Nat.div_one]
      calc 2 ^ 52 = 2 ^ k * 2 ^ (52 - k) := by rw [← Nat.pow_add]; congr 1; omega
        _ ≤ n * 2 ^ (52 - k) := Nat.mul_le_mul_right _ hself
  replace hq0 := hq0 _ hself
  have hlt := infMag_lt
  unfold round
  rw [if_neg hn, ilog2_one hn]
  have hmax : max (-1074 : Int) ((n.log2 : Int) - 52) = (n.log2 : Int) - 52 := by omega
  simp only [hmax]
  generalize n.log2 = k at *
  revert hq0
  generalize (if (0 : Int) ≤ (k : Int) - 52 then n else n * 2 ^ (-((k : Int) - 52)).toNat) = num
  generalize (if (0 : Int) ≤ (k : Int) - 52 then 1 * 2 ^ ((k : Int) - 52).toNat else 1) = den
  intro hq0
  generalize num / den = q at *
  generalize num % den = r at *
  generalize (2 ^ 52 : Nat) = B at *
  generalize (2 ^ 63 : Nat) = C at *
  have hm : (L + 1023) * B ≤ ((k : Int) - 52 + 1074).toNat * B + (if den < 2 * r ∨ 2 * r = den ∧ q % 2 = 1 then q + 1 else q) := by
    have h1 : ((k : Int) - 52 + 1074).toNat = k + 1022 := by omega
    rw [h1]
    have h2 : (L + 1023) * B ≤ (k + 1023) * B := Nat.mul_le_mul_right _ (by omega)
    have h3 : (k + 1023) * B = (k + 1022) * B + B := by rw [show k + 1023 = (k + 1022) + 1 by omega, Nat.add_mul, Nat.one_mul]
    split <;> omega
  generalize ((k : Int) - 52 + 1074).toNat * B + (if den < 2 * r ∨ 2 * r = den ∧ q % 2 = 1 then q + 1 else q) = m at *
  split
  · rw [mag_inf, hI]
    exact Nat.mul_le_mul_right _ (by omega)
  · rename_i h
    have h3 : m < 2 ^ 63 := by have := infMag_lt; omega
    rw [mag_mk', Nat.mod_eq_of_lt h3]
    exact hm

theorem ofInt_not_nan (n : Int) : (ofInt n).isNaN = false := round_not_nan _ _ _

theorem ofInt_key_neg {n : Int} (h : n < 0) : (ofInt n).key < 0 := by
  unfold ofInt key
  rw [round_neg]
  have := round_int_ge (decide (n < 0)) (n := n.natAbs) (L := 0) (by simp; omega) (by omega)
  simp only [h, decide_true, if_true] at this ⊢
  omega

theorem ofInt_key_ge {n : Int} (h : 2 ≤ n) : one.key < (ofInt n).key := by
  unfold ofInt
  unfold key
  rw [round_neg]
  have := round_int_ge (decide (n < 0)) (n := n.natAbs) (L := 1) (by simp; omega) (by omega)
  rw [decide_eq_false (by omega)] at this ⊢
  have h1 : one.neg? = false := by decide
  have h2 : one.mag = 1023 * 2 ^ 52 := by decide
  simp only [h1, h2, Bool.false_eq_true, if_false] at this ⊢
  omega

theorem ofInt_zero : ofInt 0 = zero := by decide
theorem ofInt_one : ofInt 1 = one := by decide +kernel

/-- Only 0 converts to a zero. -/
theorem ofInt_feq_zero {n : Int} : (ofInt n).feq zero = true ↔ n = 0 := by
  rw [feq_iff]
  constructor
  · rintro ⟨_, _, h⟩
    by_cases h0 : n < 0
    · have := ofInt_key_neg h0; rw [h, key_zero] at this; omega
    · by_cases h2 : 2 ≤ n
      · have := ofInt_key_ge h2
        have h1 : 0 < one.key := by decide
        rw [h, key_zero] at this; omega
      · have : n = 0 ∨ n = 1 := by omega
        rcases this with rfl | rfl
        · rfl
        · rw [ofInt_one] at h; revert h; decide
  · rintro rfl; rw [ofInt_zero]; decide

/-- Only 1 converts to 1. -/
theorem ofInt_feq_one {n : Int} : (ofInt n).feq one = true ↔ n = 1 := by
  rw [feq_iff]
  constructor
  · rintro ⟨_, _, h⟩
    by_cases h0 : n < 0
    · have := ofInt_key_neg h0
      have h1 : 0 < one.key := by decide
      omega
    · by_cases h2 : 2 ≤ n
      · have := ofInt_key_ge h2; omega
      · have : n = 0 ∨ n = 1 := by omega
        rcases this with rfl | rfl
        · rw [ofInt_zero] at h; revert h; decide
        · rfl
  · rintro rfl; rw [ofInt_one]; decide

end JP.F64
