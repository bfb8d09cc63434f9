import Mathlib.Tactic.NormNum.Prime
import Verif.Proof.Format
import Verif.Spec.JsText
/-!
The texts of numbers in JavaScript: they are determined by the number, and the code's texts are the same in
some ranges.
-/
namespace JP
open Spec F64

/-! ### Numerals -/

theorem decimal_cons (c : UInt8) (b : Bytes) : decimal (c :: b) = (c.toNat - 48) * 10 ^ b.length + decimal b := by
  have := decimal_concat [c] b
  simpa [decimal] using this

theorem digit_inj {a b : UInt8} (ha : Digit a) (hb : Digit b) (h : a.toNat - 48 = b.toNat - 48) : a = b := by
  obtain ⟨a1, a2⟩ := ha
  obtain ⟨b1, b2⟩ := hb
  have a1 : 48 ≤ a.toNat := a1
  have b1 : 48 ≤ b.toNat := b1
  exact UInt8.toNat_inj.1 (by omega)

theorem digits_inj : ∀ {a b : Bytes}, All Digit a → All Digit b → a.length = b.length → decimal a = decimal b → a = b
  | [], [], _, _, _, _ => rfl
  | [], _ :: _, _, _, h, _ => by simp at h
  | _ :: _, [], _, _, h, _ => by simp at h
  | x :: a, y :: b, ha, hb, hl, hd => by
    have hl : a.length = b.length := by simpa using hl
    have ha' : All Digit a := fun c hc => ha c (List.mem_cons_of_mem _ hc)
    have hb' : All Digit b := fun c hc => hb c (List.mem_cons_of_mem _ hc)
    rw [decimal_cons, decimal_cons, hl] at hd
    have la := decimal_lt ha'
    have lb := decimal_lt hb'
    rw [hl] at la
    have hp : 0 < 10 ^ b.length := by positivity
    have h1 : x.toNat - 48 = y.toNat - 48 := by
      have e1 : ((x.toNat - 48) * 10 ^ b.length + decimal a) / 10 ^ b.length = x.toNat - 48 := by
        rw [mul_comm, Nat.mul_add_div hp, Nat.div_eq_of_lt la, add_zero]
      have e2 : ((y.toNat - 48) * 10 ^ b.length + decimal b) / 10 ^ b.length = y.toNat - 48 := by
        rw [mul_comm, Nat.mul_add_div hp, Nat.div_eq_of_lt lb, add_zero]
      rw [← e1, ← e2, hd]
    rw [h1] at hd
    rw [digit_inj (ha x (by simp)) (hb y (by simp)) h1, digits_inj ha' hb' hl (by omega)]

theorem Spec.Numeral.length {n : Nat} {ds : Bytes} (h : Numeral n ds) (hn : 0 < n) : 10 ^ (ds.length - 1) ≤ n ∧ n < 10 ^ ds.length := by
  obtain ⟨h1, h2, h3⟩ := h
  refine ⟨?_, by rw [← h2]; exact decimal_lt h1.2⟩
  match ds, h1 with
  | c :: r, h1 =>
    rw [decimal_cons] at h2
    simp only [List.length_cons, Nat.add_sub_cancel]
    by_cases hc : c.toNat - 48 = 0
    · have : c = c! '0' := digit_inj (h1.2 c (by simp)) digit_zero (by rw [hc]; rfl)
      subst this
      have := h3 rfl
      simp at this
      subst this
      simp at *
      omega
    · rw [← h2]
      have : 1 * 10 ^ r.length ≤ (c.toNat - 48) * 10 ^ r.length := Nat.mul_le_mul_right _ (by omega)
      omega

theorem Spec.Numeral.unique {n : Nat} {a b : Bytes} (ha : Numeral n a) (hb : Numeral n b) : a = b := by
  have key : ∀ {n : Nat} {a : Bytes}, Numeral n a → n = 0 → a = [c! '0'] := by
    intro n a h hn
    obtain ⟨h1, h2, h3⟩ := h
    match a, h1 with
    | c :: r, h1 =>
      rw [decimal_cons] at h2
      have hp : 0 < 10 ^ r.length := by positivity
      have hc : c.toNat - 48 = 0 := by
        by_contra hc
        have : 1 * 10 ^ r.length ≤ (c.toNat - 48) * 10 ^ r.length := Nat.mul_le_mul_right _ (by omega)
        omega
      have : c = c! '0' := digit_inj (h1.2 c (by simp)) digit_zero (by rw [hc]; rfl)
      subst this
      exact h3 rfl
  rcases Nat.eq_zero_or_pos n with hn | hn
  · rw [key ha hn, key hb hn]
  · refine digits_inj ha.1.2 hb.1.2 ?_ (by rw [ha.2.1, hb.2.1])
    have pa : 0 < a.length := List.length_pos_iff.2 ha.1.1
    have pb : 0 < b.length := List.length_pos_iff.2 hb.1.1
    obtain ⟨a1, a2⟩ := ha.length hn
    obtain ⟨b1, b2⟩ := hb.length hn
    have h1 := (Nat.pow_lt_pow_iff_right (by norm_num : 1 < 10)).1 (lt_of_le_of_lt a1 b2)
    have h2 := (Nat.pow_lt_pow_iff_right (by norm_num : 1 < 10)).1 (lt_of_le_of_lt b1 a2)
    omega

theorem numeral_natToBytes (n : Nat) : Numeral n (natToBytes n) := by
  obtain ⟨h1, h2⟩ := natToBytes_spec n
  refine ⟨h1, h2, fun h => ?_⟩
  rcases Nat.eq_zero_or_pos n with hn | hn
  · subst hn; rfl
  · exfalso
    obtain ⟨-, h4, -⟩ := natToBytes_length hn
    match hds : natToBytes n, h1 with
    | c :: r, h1 =>
      rw [hds] at h h2 h4
      simp at h
      subst h
      rw [decimal_cons] at h2
      have := decimal_lt (ds := r) (fun c hc => h1.2 c (List.mem_cons_of_mem _ hc))
      simp at *
      omega

theorem integerText_intToBytes (n : Int) : IntegerText n (intToBytes n) := by
  unfold intToBytes
  split
  · next h =>
    have := IntegerText.neg n.natAbs _ (by omega) (numeral_natToBytes n.natAbs)
    rwa [show -((n.natAbs : Nat) : ℤ) = n by omega] at this
  · next h =>
    have := IntegerText.nonneg n.natAbs _ (numeral_natToBytes n.natAbs)
    rwa [show ((n.natAbs : Nat) : ℤ) = n by omega] at this

theorem Spec.IntegerText.unique {n : Int} {a b : Bytes} (ha : IntegerText n a) (hb : IntegerText n b) : a = b := by
  generalize hm : n = m at hb
  cases ha with
  | nonneg k ds h =>
    cases hb with
    | nonneg k' ds' h' =>
      have : k = k' := by omega
      subst this
      exact h.unique h'
    | neg k' ds' hp h' => omega
  | neg k ds hp h =>
    cases hb with
    | nonneg k' ds' h' => omega
    | neg k' ds' hp' h' =>
      have : k = k' := by omega
      subst this
      rw [h.unique h']

/-! ### The shortest decimal is determined by the number -/

/-- Half way between 9 and 10 times a power of 10 there is no float that both round to. -/
theorem no_half_ten {x : F64} (hf : x.Finite) (h0 : x.mag ≠ 0) {e : ℤ} (hr : Rounds (signedDec x 9 e) x)
    (hv : magVal x.mag = 19 / 2 * 10 ^ e) : False := by
  have hman := mag_pos_man h0
  have hu : (0 : ℚ) < 2 ^ x.expo := by positivity
  have hxv := val_man x
  -- the float below
  have hlt : ((x.man - 1 : Nat) : ℚ) * 2 ^ x.expo < 2 ^ 1024 := by
    refine lt_of_le_of_lt ?_ (magVal_lt hf)
    rw [hxv]
    refine mul_le_mul_of_nonneg_right ?_ hu.le
    exact_mod_cast Nat.sub_le _ _
  obtain ⟨m, hm, hmv⟩ := representable (x.man - 1) x.expo (by have := man_le x; omega) (expo_ge x) hlt
  have hn := hr.nearest hf (mk' x.neg? m) (by unfold F64.Finite; rw [finite_mk' hm]; exact hm)
  have hn' : |magVal x.mag - 9 * 10 ^ e| ≤ |magVal m - 9 * 10 ^ e| := by
    rw [val_mk' hm] at hn
    unfold val signedDec at hn
    push_cast at hn
    by_cases hs : x.neg? = true
    · rw [if_pos hs, if_pos hs, if_pos hs] at hn
      rw [← abs_neg (magVal x.mag - _), ← abs_neg (magVal m - _)]
      convert hn using 2 <;> ring
    · rw [if_neg hs, if_neg hs, if_neg hs] at hn
      exact hn
  have hc : ((x.man - 1 : Nat) : ℚ) = x.man - 1 := by
    rw [Nat.cast_sub hman]; simp
  have hmp : (1 : ℚ) ≤ x.man := by exact_mod_cast hman
  have h10 : (10 : ℚ) ^ e = 2 / 19 * (x.man * 2 ^ x.expo) := by
    rw [← hxv, hv]; ring
  have hsmall : x.man ≤ 9 := by
    rw [hmv, hc, hxv, h10] at hn'
    generalize (2 : ℚ) ^ x.expo = u at *
    have e1 : (x.man : ℚ) * u - 9 * (2 / 19 * (x.man * u)) = x.man / 19 * u := by ring
    have e2 : ((x.man : ℚ) - 1) * u - 9 * (2 / 19 * (x.man * u)) = (x.man / 19 - 1) * u := by ring
    rw [e1, e2, abs_mul, abs_mul, abs_of_pos hu] at hn'
    have h3 := le_of_mul_le_mul_right hn' hu
    by_contra hc9
    have h10 : (10 : ℚ) ≤ x.man := by exact_mod_cast (by omega : 10 ≤ x.man)
    rw [abs_of_pos (by positivity)] at h3
    rcases le_total 0 ((x.man : ℚ) / 19 - 1) with h | h
    · rw [abs_of_nonneg h] at h3; linarith
    · rw [abs_of_nonpos h] at h3; linarith
  have hdvd : 19 ∣ x.man := by
    have hq : (x.man : ℚ) * 2 ^ x.expo * 2 = 19 * 10 ^ e := by rw [← hxv, hv]; ring
    obtain ⟨a, ha⟩ : ∃ a : Nat, x.expo + (e.natAbs + x.expo.natAbs : Nat) = a := ⟨(x.expo + (e.natAbs + x.expo.natAbs : Nat)).toNat, by omega⟩
    obtain ⟨b, hb⟩ : ∃ b : Nat, e + (e.natAbs + x.expo.natAbs : Nat) = b := ⟨(e + (e.natAbs + x.expo.natAbs : Nat)).toNat, by omega⟩
    generalize e.natAbs + x.expo.natAbs = N at *
    have hN : x.man * 2 ^ a * 2 * 10 ^ N = 19 * 10 ^ b * 2 ^ N := by
      have e1 : (2 : ℚ) ^ x.expo * 2 ^ N = 2 ^ a := by rw [← zpow_natCast, ← zpow_add₀ (by norm_num), ha, zpow_natCast]
      have e2 : (10 : ℚ) ^ e * 10 ^ N = 10 ^ b := by rw [← zpow_natCast, ← zpow_add₀ (by norm_num), hb, zpow_natCast]
      have : (x.man : ℚ) * 2 ^ a * 2 * 10 ^ N = 19 * 10 ^ b * 2 ^ N := by
        rw [← e1, ← e2]
        linear_combination 10 ^ N * 2 ^ N * hq
      exact_mod_cast this
    have p19 : Nat.Prime 19 := by norm_num
    have hd : 19 ∣ x.man * 2 ^ a * 2 * 10 ^ N := by
      rw [hN, mul_assoc]; exact Dvd.intro _ rfl
    rcases p19.dvd_mul.1 hd with h | h
    · rcases p19.dvd_mul.1 h with h | h
      · rcases p19.dvd_mul.1 h with h | h
        · exact h
        · exact absurd (p19.dvd_of_dvd_pow h) (by decide)
      · exact absurd h (by decide)
    · exact absurd (p19.dvd_of_dvd_pow h) (by decide)
  have := Nat.le_of_dvd hman hdvd
  omega

theorem Spec.Shortest.pos {x : F64} (hf : x.Finite) (h0 : x.mag ≠ 0) {m : Nat} {e : ℤ} (h : Shortest x m e) : 0 < m :=
  reads_pos hf h0 h.reads

private theorem not_less {x : F64} (hf : x.Finite) (h0 : x.mag ≠ 0) {m1 m2 : Nat} {e1 e2 : ℤ} (h1 : Shortest x m1 e1) (h2 : Shortest x m2 e2) :
    ¬ (m1 : ℚ) * 10 ^ e1 < m2 * 10 ^ e2 := by
  intro hlt
  have p1 := h1.pos hf h0
  have p2 := h2.pos hf h0
  have d12 := h1.closest m2 e2 h2.reads fun k hk => h2.least m1 e1 k h1.reads hk
  have d21 := h2.closest m1 e1 h1.reads fun k hk => h1.least m2 e2 k h2.reads hk
  have hd := le_antisymm d12 d21
  have hdq := hd
  rw [dist_signed, dist_signed] at hdq
  -- the number is half way
  have hv : (m1 : ℚ) * 10 ^ e1 + m2 * 10 ^ e2 = 2 * magVal x.mag := by
    rcases abs_eq_abs.1 hdq with h | h <;> linarith
  obtain ⟨l0, l1, l2⟩ := natToBytes_length p1
  generalize (natToBytes m1).length = L at *
  have l3 : m2 < 10 ^ L := h2.least m1 e1 L h1.reads l2
  have l4 : 10 ^ (L - 1) ≤ m2 := by
    by_contra hc
    have := h1.least m2 e2 (L - 1) h2.reads (by omega)
    omega
  have he12 : e1 ≤ e2 := by
    by_contra hc
    have : (m2 : ℚ) * 10 ^ e2 < m1 * 10 ^ e1 := by
      calc (m2 : ℚ) * 10 ^ e2 < 10 ^ L * 10 ^ e2 := mul_lt_mul_of_pos_right (by exact_mod_cast l3) (by positivity)
        _ ≤ 10 ^ (L - 1) * 10 ^ e1 := by
          rw [← zpow_natCast, ← zpow_natCast, ← zpow_add₀ (by norm_num), ← zpow_add₀ (by norm_num)]
          exact zpow_le_zpow_right₀ (by norm_num) (by omega)
        _ ≤ m1 * 10 ^ e1 := mul_le_mul_of_nonneg_right (by exact_mod_cast l1) (by positivity)
    linarith
  have hle : ((m1 + 1 : Nat) : ℚ) * 10 ^ e1 ≤ m2 * 10 ^ e2 := by
    rcases eq_or_lt_of_le he12 with h | h
    · subst h
      have := lt_of_mul_lt_mul_right hlt (by positivity)
      refine mul_le_mul_of_nonneg_right ?_ (by positivity)
      have : m1 < m2 := by exact_mod_cast this
      exact_mod_cast this
    · calc ((m1 + 1 : Nat) : ℚ) * 10 ^ e1 ≤ 10 ^ L * 10 ^ e1 := mul_le_mul_of_nonneg_right (by exact_mod_cast l2) (by positivity)
        _ ≤ 10 ^ (L - 1) * 10 ^ e2 := by
          rw [← zpow_natCast, ← zpow_natCast, ← zpow_add₀ (by norm_num), ← zpow_add₀ (by norm_num)]
          exact zpow_le_zpow_right₀ (by norm_num) (by omega)
        _ ≤ m2 * 10 ^ e2 := mul_le_mul_of_nonneg_right (by exact_mod_cast l4) (by positivity)
  have hgt : (m1 : ℚ) * 10 ^ e1 < ((m1 + 1 : Nat) : ℚ) * 10 ^ e1 := by
    refine mul_lt_mul_of_pos_right ?_ (by positivity)
    exact_mod_cast Nat.lt_succ_self m1
  rcases lt_or_eq_of_le hle with hlt2 | heq
  · -- one in between is nearer
    have between : ∀ (m' : Nat) (e' : ℤ), (m' : ℚ) * 10 ^ e' = ((m1 + 1 : Nat) : ℚ) * 10 ^ e1 → (∀ k, m1 < 10 ^ k → m' < 10 ^ k) → False := by
      intro m' e' hq hk
      have hr : Rounds (signedDec x m' e') x := by
        rcases le_total ((m' : ℚ) * 10 ^ e') (magVal x.mag) with h | h
        · exact reads_between hf h1.reads (Or.inl ⟨by rw [hq]; exact hgt.le, h⟩)
        · exact reads_between hf h2.reads (Or.inr ⟨by rw [hq]; exact hle, h⟩)
      have := h1.closest m' e' hr hk
      rw [dist_signed, dist_signed, hq, abs_of_neg (by linarith)] at this
      rcases le_total 0 (((m1 + 1 : Nat) : ℚ) * 10 ^ e1 - magVal x.mag) with h | h
      · rw [abs_of_nonneg h] at this; linarith
      · rw [abs_of_nonpos h] at this; linarith
    by_cases hL : m1 + 1 < 10 ^ L
    · refine between (m1 + 1) e1 rfl fun k hk => lt_of_lt_of_le hL (Nat.pow_le_pow_right (by norm_num) ?_)
      have := (Nat.pow_lt_pow_iff_right (by norm_num : 1 < 10)).1 (lt_of_le_of_lt l1 hk)
      omega
    · have hL : m1 + 1 = 10 ^ L := by omega
      refine between 1 (e1 + L) ?_ fun k hk => ?_
      · rw [hL, zpow_add₀ (by norm_num), zpow_natCast]
        push_cast
        ring
      · rcases Nat.eq_zero_or_pos k with rfl | hk0
        · simp at hk; omega
        · exact Nat.one_lt_pow (by omega) (by norm_num)
  · rcases eq_or_lt_of_le he12 with h | h
    · subst h
      have h3 : m1 + 1 = m2 := by exact_mod_cast mul_right_cancel₀ (show (10 : ℚ) ^ e1 ≠ 0 by positivity) heq
      have a := h1.even m2 h2.reads (by omega) hd
      have b := h2.even m1 h1.reads (by omega) hd.symm
      omega
    · obtain ⟨n, hn⟩ : ∃ n : Nat, e2 = e1 + (n + 1 : Nat) := ⟨(e2 - e1 - 1).toNat, by omega⟩
      have hnat : m1 + 1 = m2 * 10 ^ (n + 1) := by
        rw [hn, zpow_add₀ (by norm_num), zpow_natCast] at heq
        have : (10 : ℚ) ^ e1 * ((m1 + 1 : Nat) : ℚ) = 10 ^ e1 * (m2 * 10 ^ (n + 1)) := by linear_combination heq
        exact_mod_cast mul_left_cancel₀ (show (10 : ℚ) ^ e1 ≠ 0 by positivity) this
      have hpow : 10 ^ L = 10 ^ (L - 1) * 10 := by rw [← pow_succ]; congr 1; omega
      have hm2 : m2 = 10 ^ (L - 1) := by
        by_contra hc
        have : (10 ^ (L - 1) + 1) * 10 ≤ m2 * 10 ^ (n + 1) := by
          rw [pow_succ, ← mul_assoc]
          refine Nat.mul_le_mul_right _ ?_
          have : m2 * 1 ≤ m2 * 10 ^ n := Nat.mul_le_mul_left _ (Nat.one_le_iff_ne_zero.2 (by positivity))
          omega
        omega
      have hL1 : L - 1 = 0 := by
        by_contra hc
        apply h2.trimmed
        rw [hm2, show L - 1 = L - 1 - 1 + 1 by omega, pow_succ]
        omega
      rw [hL1, pow_zero] at hm2
      have hLe : L = 1 := by omega
      subst hLe
      have hm1 : m1 = 9 := by
        rw [hm2, one_mul, pow_succ] at hnat
        have : 1 ≤ 10 ^ n := Nat.one_le_iff_ne_zero.2 (by positivity)
        omega
      subst hm1
      refine no_half_ten hf h0 h1.reads ?_
      rw [← heq] at hv
      push_cast at hv
      linarith

/-- The shortest decimal is determined by the number. -/
theorem Spec.Shortest.unique {x : F64} (hf : x.Finite) (h0 : x.mag ≠ 0) {m1 m2 : Nat} {e1 e2 : ℤ} (h1 : Shortest x m1 e1)
    (h2 : Shortest x m2 e2) : m1 = m2 ∧ e1 = e2 := by
  have hq : (m1 : ℚ) * 10 ^ e1 = m2 * 10 ^ e2 :=
    le_antisymm (not_lt.1 (not_less hf h0 h2 h1)) (not_lt.1 (not_less hf h0 h1 h2))
  have key : ∀ {m1 m2 : Nat} {e1 e2 : ℤ}, (m1 : ℚ) * 10 ^ e1 = m2 * 10 ^ e2 → m1 % 10 ≠ 0 → ¬ e1 < e2 := by
    intro m1 m2 e1 e2 hq ht hlt
    obtain ⟨n, hn⟩ : ∃ n : Nat, e2 = e1 + (n + 1 : Nat) := ⟨(e2 - e1 - 1).toNat, by omega⟩
    rw [hn, zpow_add₀ (by norm_num), zpow_natCast] at hq
    have : (10 : ℚ) ^ e1 * (m1 : ℚ) = 10 ^ e1 * (m2 * 10 ^ (n + 1)) := by linear_combination hq
    have hnat : m1 = m2 * 10 ^ (n + 1) := by exact_mod_cast mul_left_cancel₀ (show (10 : ℚ) ^ e1 ≠ 0 by positivity) this
    apply ht
    rw [hnat, pow_succ, ← mul_assoc]
    omega
  have he : e1 = e2 := le_antisymm (not_lt.1 (key hq.symm h2.trimmed)) (not_lt.1 (key hq h1.trimmed))
  subst he
  exact ⟨by exact_mod_cast mul_right_cancel₀ (show (10 : ℚ) ^ e1 ≠ 0 by positivity) hq, rfl⟩

/-! ### The text of a number is determined by it -/

theorem zeros_eq {n : Nat} {w : Bytes} : Zeros n w ↔ w = List.replicate n (c! '0') := by
  rw [List.eq_replicate_iff]
  rfl

theorem Spec.Mantissa.unique {ds a b : Bytes} (ha : Mantissa ds a) (hb : Mantissa ds b) : a = b := by
  cases ha <;> cases hb <;> rfl

theorem Spec.MagText.unique {ds : Bytes} {n : ℤ} {a b : Bytes} (hd : ds ≠ []) (ha : MagText ds n a) (hb : MagText ds n b) : a = b := by
  have hl0 : 0 < ds.length := List.length_pos_iff.2 hd
  cases ha with
  | whole zs h1 h2 h3 =>
    cases hb with
    | whole zs' h1' h2' h3' => rw [zeros_eq] at h3 h3'; rw [h3, h3']
    | point a b hab _ _ hl hb =>
      have : 0 < b.length := List.length_pos_iff.2 hb
      subst hab
      simp at h1
      omega
    | fraction zs _ h _ => omega
    | exponent _ _ h _ _ => omega
  | point a b hab _ _ hl hb' =>
    have hbl : 0 < b.length := List.length_pos_iff.2 hb'
    cases hb with
    | whole zs' h1' h2' h3' => subst hab; simp at h1'; omega
    | point a' b' hab' _ _ hl' hb =>
      subst hab
      have := List.append_inj hab' (by omega)
      rw [this.1, this.2]
    | fraction zs _ h _ => omega
    | exponent _ _ h _ _ => omega
  | fraction zs h1 h2 h3 =>
    cases hb with
    | whole zs' h1' h2' h3' => omega
    | point a b hab _ _ hl hb => omega
    | fraction zs' _ _ h3' => rw [zeros_eq] at h3 h3'; rw [h3, h3']
    | exponent _ _ h _ _ => omega
  | exponent w es h1 h2 h3 =>
    cases hb with
    | whole zs' h1' h2' h3' => omega
    | point a b hab _ _ hl hb => omega
    | fraction zs' _ _ h3' => omega
    | exponent w' es' h1' h2' h3' => rw [h2.unique h2', h3.unique h3']

theorem Spec.NumberText.unique {x : F64} {a b : Bytes} (ha : NumberText x a) (hb : NumberText x b) : a = b := by
  have special : ∀ {x : F64}, x.isNaN = true → x.mag ≠ 0 ∧ x.isInf = false ∧ ¬ x.Finite := by
    intro x h
    have hi : infMag = 0x7FF * 2 ^ 52 := rfl
    simp only [isNaN, isInf, F64.Finite, decide_eq_true_eq, beq_eq_false_iff_ne] at *
    omega
  have special' : ∀ {x : F64}, x.isInf = true → x.mag ≠ 0 ∧ ¬ x.Finite := by
    intro x h
    have hi : infMag = 0x7FF * 2 ^ 52 := rfl
    simp only [isInf, F64.Finite, beq_iff_eq] at *
    omega
  have key : ∀ {m m' : Nat} {e e' : ℤ} {ds ds' w w' : Bytes}, x.Finite → x.mag ≠ 0 → Shortest x m e → Numeral m ds →
      MagText ds (ds.length + e) w → Shortest x m' e' → Numeral m' ds' → MagText ds' (ds'.length + e') w' → w = w' := by
    intro m m' e e' ds ds' w w' hf h0 h1 h2 h3 h1' h2' h3'
    obtain ⟨rfl, rfl⟩ := h1.unique hf h0 h1'
    cases h2.unique h2'
    exact h3.unique h2.1.1 h3'
  cases ha with
  | nan h =>
    cases hb with
    | nan _ => rfl
    | zero h' => exact absurd h' (special h).1
    | infinite h' | negInfinite h' => rw [(special h).2.1] at h'; cases h'
    | positive _ _ _ _ h' | negative _ _ _ _ h' => exact absurd h' (special h).2.2
  | zero h =>
    cases hb with
    | nan h' => exact absurd h (special h').1
    | zero h' => rfl
    | infinite h' | negInfinite h' => exact absurd h (special' h').1
    | positive _ _ _ _ _ h' | negative _ _ _ _ _ h' => exact absurd h h'
  | infinite h hs =>
    cases hb with
    | nan h' => rw [(special h').2.1] at h; cases h
    | zero h' => exact absurd h' (special' h).1
    | infinite h' => rfl
    | negInfinite h' hs' => rw [hs] at hs'; cases hs'
    | positive _ _ _ _ h' | negative _ _ _ _ h' => exact absurd h' (special' h).2
  | negInfinite h hs =>
    cases hb with
    | nan h' => rw [(special h').2.1] at h; cases h
    | zero h' => exact absurd h' (special' h).1
    | infinite h' hs' => rw [hs] at hs'; cases hs'
    | negInfinite h' => rfl
    | positive _ _ _ _ h' | negative _ _ _ _ h' => exact absurd h' (special' h).2
  | positive m e ds w hf h0 hs h1 h2 h3 =>
    cases hb with
    | nan h' => exact absurd hf (special h').2.2
    | zero h' => exact absurd h' h0
    | infinite h' | negInfinite h' => exact absurd hf (special' h').2
    | positive m' e' ds' w' hf' h0' hs' h1' h2' h3' => exact key hf h0 h1 h2 h3 h1' h2' h3'
    | negative _ _ _ _ _ _ hs' => rw [hs] at hs'; cases hs'
  | negative m e ds w hf h0 hs h1 h2 h3 =>
    cases hb with
    | nan h' => exact absurd hf (special h').2.2
    | zero h' => exact absurd h' h0
    | infinite h' | negInfinite h' => exact absurd hf (special' h').2
    | negative m' e' ds' w' hf' h0' hs' h1' h2' h3' => rw [key hf h0 h1 h2 h3 h1' h2' h3']
    | positive _ _ _ _ _ _ hs' => rw [hs] at hs'; cases hs'

/-! ### The code's texts -/

/-- The place of the point, from the size of the number. -/
theorem point_low {x : F64} (hf : x.Finite) (h0 : x.mag ≠ 0) {m : Nat} {e : ℤ} {ds : Bytes} (hs : Shortest x m e) (hn : Numeral m ds)
    {a : ℤ} (ha : 10 ^ a ≤ magVal x.mag) : a < ds.length + e := by
  by_contra hc
  have hp := hs.pos hf h0
  have hq : (m : ℚ) * 10 ^ e < 10 ^ a := by
    calc (m : ℚ) * 10 ^ e < 10 ^ ds.length * 10 ^ e := mul_lt_mul_of_pos_right (by exact_mod_cast (hn.length hp).2) (by positivity)
      _ ≤ 10 ^ a := by
        rw [← zpow_natCast, ← zpow_add₀ (by norm_num)]
        exact zpow_le_zpow_right₀ (by norm_num) (by omega)
  have h1 : ((1 : Nat) : ℚ) * 10 ^ a = 10 ^ a := by simp
  have hr : Rounds (signedDec x 1 a) x := reads_between hf hs.reads (Or.inl ⟨by rw [h1]; exact hq.le, by rw [h1]; exact ha⟩)
  have := hs.closest 1 a hr fun k hk => by
    rcases Nat.eq_zero_or_pos k with rfl | hk0
    · simp at hk; omega
    · exact Nat.one_lt_pow (by omega) (by norm_num)
  rw [dist_signed, dist_signed, h1, abs_of_nonpos (by linarith), abs_of_nonpos (by linarith)] at this
  linarith

theorem point_high {x : F64} (hf : x.Finite) (h0 : x.mag ≠ 0) {m : Nat} {e : ℤ} {ds : Bytes} (hs : Shortest x m e) (hn : Numeral m ds)
    {a : ℤ} (ha : magVal x.mag < 10 ^ a) : ds.length + e ≤ a ∨ (ds.length + e = a + 1 ∧ Rounds (signedDec x 1 a) x) := by
  by_cases hc : ds.length + e ≤ a
  · exact Or.inl hc
  right
  have hp := hs.pos hf h0
  have hl : 0 < ds.length := List.length_pos_iff.2 hn.1.1
  have hq' : (10 : ℚ) ^ (ds.length + e - 1) ≤ m * 10 ^ e := by
    rw [show ds.length + e - 1 = ((ds.length - 1 : Nat) : ℤ) + e by omega, zpow_add₀ (by norm_num), zpow_natCast]
    exact mul_le_mul_of_nonneg_right (by exact_mod_cast (hn.length hp).1) (by positivity)
  have hq : (10 : ℚ) ^ a ≤ m * 10 ^ e := le_trans (zpow_le_zpow_right₀ (by norm_num) (by omega)) hq'
  have h1 : ((1 : Nat) : ℚ) * 10 ^ a = 10 ^ a := by simp
  have hr : Rounds (signedDec x 1 a) x := reads_between hf hs.reads (Or.inr ⟨by rw [h1]; exact hq, by rw [h1]; exact ha.le⟩)
  have := hs.closest 1 a hr fun k hk => by
    rcases Nat.eq_zero_or_pos k with rfl | hk0
    · simp at hk; omega
    · exact Nat.one_lt_pow (by omega) (by norm_num)
  rw [dist_signed, dist_signed, h1, abs_of_nonneg (by linarith), abs_of_nonneg (by linarith)] at this
  refine ⟨?_, hr⟩
  have h2 : (10 : ℚ) ^ (ds.length + e - 1) ≤ 10 ^ a := by linarith
  have := (zpow_le_zpow_iff_right₀ (by norm_num)).1 h2
  omega

/-- Some powers of 10 are exactly floats. -/
theorem rounds_ten {x : F64} (a : Nat) (ha : a ≤ 22) (hr : Rounds (signedDec x 1 a) x) : magVal x.mag = 10 ^ (a : ℤ) := by
  have h5 : 5 ^ a ≤ 2 ^ 53 := le_trans (Nat.pow_le_pow_right (by norm_num) ha) (by norm_num)
  have hlt : ((5 ^ a : Nat) : ℚ) * 2 ^ (a : ℤ) < 2 ^ 1024 := by
    calc ((5 ^ a : Nat) : ℚ) * 2 ^ (a : ℤ) ≤ 2 ^ 53 * 2 ^ 22 := by
          refine mul_le_mul (by exact_mod_cast h5) ?_ (by positivity) (by positivity)
          rw [zpow_natCast]
          exact pow_le_pow_right₀ (by norm_num) ha
      _ < 2 ^ 1024 := by
          rw [← pow_add]
          exact pow_lt_pow_right₀ (by norm_num) (by norm_num)
  obtain ⟨m, hm, hmv⟩ := representable (5 ^ a) a h5 (by omega) hlt
  have hz : (mk' x.neg? m).Finite := by unfold F64.Finite; rw [finite_mk' hm]; exact hm
  have h10 : magVal m = 10 ^ (a : ℤ) := by
    rw [hmv, zpow_natCast, zpow_natCast]
    push_cast
    rw [← mul_pow]
    norm_num
  have hv : (mk' x.neg? m).val = signedDec x 1 a := by
    rw [val_mk' hm, h10]
    unfold signedDec
    simp
  obtain ⟨-, h⟩ := hr.exact hz hv
  have := abs_val x
  rw [h, signedDec_eq, abs_sgn _ (by positivity)] at this
  rw [← this]
  simp

theorem formatF_text {ds : Bytes} {n : ℤ} (h1 : -6 < n) (h2 : n ≤ 21) : MagText ds n (formatF ds n) := by
  unfold formatF
  split
  · exact .fraction _ h1 (by assumption) (zeros_eq.2 rfl)
  · split
    · exact .whole _ (by assumption) h2 (zeros_eq.2 rfl)
    · next h3 h4 =>
      refine .point _ _ (List.take_append_drop _ _).symm (by omega) h2 ?_ ?_
      · rw [List.length_take]; omega
      · intro h
        have := congrArg List.length h
        rw [List.length_drop, List.length_nil] at this
        omega

theorem formatE_text {ds : Bytes} {n : ℤ} (hd : ds ≠ []) (h1 : n ≤ -6 ∨ 21 < n) (h2 : 10 ≤ (n - 1).natAbs) : MagText ds n (formatE ds (n - 1)) := by
  have hl : ¬ (natToBytes (n - 1).natAbs).length < 2 := by
    intro h
    obtain ⟨-, -, h3⟩ := natToBytes_length (n := (n - 1).natAbs) (by omega)
    have : 10 ^ (natToBytes (n - 1).natAbs).length ≤ 10 ^ 1 := Nat.pow_le_pow_right (by norm_num) (by omega)
    omega
  unfold formatE
  simp only
  rw [if_neg hl]
  refine .exponent _ _ h1 ?_ (numeral_natToBytes _)
  match ds, hd with
  | [d], _ => exact .one d
  | d :: c :: r, _ => exact .more d c r

theorem rounds_nano {x : F64} (hf : x.Finite) (hr : Rounds (signedDec x 1 (-9)) x) : 10 ^ (-9 : ℤ) ≤ magVal x.mag := by
  have h := (readsBack_iff hf 1 (by norm_num) (-9)).2 hr
  simp only [readsBack, beq_iff_eq] at h
  have hx : x.mag = 0x3E112E0BE826D695 := by
    cases hn : x.neg? <;> rw [hn] at h
    · rw [show ofDecimal false 1 (-9) = some ⟨0x3E112E0BE826D695⟩ by decide +kernel] at h
      cases h
      decide
    · rw [show ofDecimal true 1 (-9) = some ⟨0xBE112E0BE826D695⟩ by decide +kernel] at h
      cases h
      decide
  have hm : x.man = 0x112E0BE826D695 := by unfold man; rw [hx]; decide
  have he : x.expo = -82 := by unfold expo; rw [hx]; decide
  rw [val_man, hm, he]
  norm_num

theorem rounds_tenth_milli {x : F64} (hf : x.Finite) (hr : Rounds (signedDec x 1 (-4)) x) : 10 ^ (-4 : ℤ) ≤ magVal x.mag := by
  have h := (readsBack_iff hf 1 (by norm_num) (-4)).2 hr
  simp only [readsBack, beq_iff_eq] at h
  have hx : x.mag = 0x3F1A36E2EB1C432D := by
    cases hn : x.neg? <;> rw [hn] at h
    · rw [show ofDecimal false 1 (-4) = some ⟨0x3F1A36E2EB1C432D⟩ by decide +kernel] at h
      cases h
      decide
    · rw [show ofDecimal true 1 (-4) = some ⟨0xBF1A36E2EB1C432D⟩ by decide +kernel] at h
      cases h
      decide
  have hm : x.man = 0x1A36E2EB1C432D := by unfold man; rw [hx]; decide
  have he : x.expo = -66 := by unfold expo; rw [hx]; decide
  rw [val_man, hm, he]
  norm_num

/-- Where the code writes a finite number other than 0 as JavaScript does. -/
theorem fmtFloat_text {x : F64} (hf : x.Finite) (h0 : x.mag ≠ 0)
    (hr : (10 ^ (-4 : ℤ) ≤ magVal x.mag ∧ magVal x.mag < 10 ^ (6 : ℤ)) ∨ 10 ^ (21 : ℤ) ≤ magVal x.mag ∨ magVal x.mag < 10 ^ (-9 : ℤ)) :
    NumberText x (fmtFloat x) := by
  have hs := shortest_spec hf h0
  have hn := numeral_natToBytes (shortest x).1
  have hm : MagText (natToBytes (shortest x).1) ((natToBytes (shortest x).1).length + (shortest x).2) (formatMag x) := by
    unfold formatMag
    rw [if_neg h0]
    simp only
    rcases hr with ⟨h1, h2⟩ | h | h
    · have l1 := point_low hf h0 hs hn h1
      have l2 : (natToBytes (shortest x).1).length + (shortest x).2 ≤ 6 := by
        rcases point_high hf h0 hs hn h2 with h | ⟨-, h⟩
        · exact h
        · rw [rounds_ten 6 (by norm_num) h] at h2
          exact absurd h2 (lt_irrefl _)
      rw [if_neg (by simp only [Bool.or_eq_true, decide_eq_true_eq]; omega)]
      exact formatF_text (by omega) (by omega)
    · have l1 := point_low hf h0 hs hn h
      rw [if_pos (by simp only [Bool.or_eq_true, decide_eq_true_eq]; omega)]
      exact formatE_text hn.1.1 (Or.inr (by omega)) (by omega)
    · have l2 : (natToBytes (shortest x).1).length + (shortest x).2 ≤ -9 := by
        rcases point_high hf h0 hs hn h with h | ⟨-, h'⟩
        · exact h
        · exact absurd h (not_lt.2 (rounds_nano hf h'))
      rw [if_pos (by simp only [Bool.or_eq_true, decide_eq_true_eq]; omega)]
      exact formatE_text hn.1.1 (Or.inl (by omega)) (by omega)
  rw [fmtFloat_finite hf]
  by_cases hneg : x.neg? = true
  · rw [if_pos hneg]
    exact .negative x _ _ _ _ hf h0 hneg hs hn hm
  · rw [if_neg hneg]
    exact .positive x _ _ _ _ hf h0 (by simpa using hneg) hs hn hm

/-- Where it does not: from a million on it uses an exponent, JavaScript only from `10^21` on. -/
theorem fmtFloat_large {x : F64} (hf : x.Finite) (h1 : 10 ^ (6 : ℤ) ≤ magVal x.mag) (h2 : magVal x.mag < 10 ^ (21 : ℤ)) {t : Bytes}
    (ht : NumberText x t) : c! 'e' ∈ fmtFloat x ∧ c! 'e' ∉ t := by
  have h0 : x.mag ≠ 0 := by
    intro h
    rw [h, magVal_zero] at h1
    norm_num at h1
  have hd : ∀ {ds : Bytes} {m : Nat}, Numeral m ds → c! 'e' ∉ ds := fun h hc => absurd (h.1.2 _ hc).2 (by decide)
  constructor
  · have hmag : c! 'e' ∈ formatMag x := by
      have l1 := point_low hf h0 (shortest_spec hf h0) (numeral_natToBytes _) h1
      unfold formatMag
      rw [if_neg h0]
      simp only
      rw [if_pos (by simp only [Bool.or_eq_true, decide_eq_true_eq]; omega)]
      unfold formatE
      simp
    rw [fmtFloat_finite hf]
    split
    · exact List.mem_cons_of_mem _ hmag
    · exact hmag
  · have hmt : ∀ {ds w : Bytes} {m : Nat} {e : ℤ}, Shortest x m e → Numeral m ds → MagText ds (ds.length + e) w → c! 'e' ∉ w := by
      intro ds w m e hs hn hw
      have l1 := point_low hf h0 hs hn h1
      have l2 : ds.length + e ≤ 21 := by
        rcases point_high hf h0 hs hn h2 with h | ⟨-, h⟩
        · exact h
        · rw [rounds_ten 21 (by norm_num) h] at h2
          exact absurd h2 (lt_irrefl _)
      cases hw with
      | whole zs _ _ hz =>
        intro hc
        rcases List.mem_append.1 hc with h | h
        · exact hd hn h
        · have := hz.2 _ h; revert this; decide
      | point a b hab =>
        intro hc
        have hd := hd hn
        rw [hab] at hd
        simp at hc hd
        tauto
      | fraction => omega
      | exponent _ _ h => omega
    cases ht with
    | nan h => rw [(not_special hf).1] at h; cases h
    | zero h => exact absurd h h0
    | infinite h | negInfinite h => rw [(not_special hf).2] at h; cases h
    | positive m e ds w _ _ _ hs hn hw => exact hmt hs hn hw
    | negative m e ds w _ _ _ hs hn hw =>
      intro hc
      rcases List.mem_cons.1 hc with h | h
      · revert h; decide
      · exact hmt hs hn hw h

/-- Nor from `10^-9` up to `10^-4`: the exponent has a zero in front, or JavaScript uses none. -/
theorem fmtFloat_small {x : F64} (hf : x.Finite) (h1 : 10 ^ (-9 : ℤ) ≤ magVal x.mag) (h2 : magVal x.mag < 10 ^ (-4 : ℤ)) {t : Bytes}
    (ht : NumberText x t) : fmtFloat x ≠ t := by
  have h0 : x.mag ≠ 0 := by
    intro h
    rw [h, magVal_zero] at h1
    norm_num at h1
  have hs := shortest_spec hf h0
  have hn := numeral_natToBytes (shortest x).1
  have hmag : ∀ {w : Bytes}, MagText (natToBytes (shortest x).1) ((natToBytes (shortest x).1).length + (shortest x).2) w → formatMag x ≠ w := by
    intro w hw
    have l1 := point_low hf h0 hs hn h1
    have l2 : (natToBytes (shortest x).1).length + (shortest x).2 ≤ -4 := by
      rcases point_high hf h0 hs hn h2 with h | ⟨-, h⟩
      · exact h
      · exact absurd h2 (not_lt.2 (rounds_tenth_milli hf h))
    have hd : c! 'e' ∉ natToBytes (shortest x).1 := fun hc => absurd (hn.1.2 _ hc).2 (by decide)
    have hne := hn.1.1
    unfold formatMag
    rw [if_neg h0]
    simp only
    generalize hN : ((natToBytes (shortest x).1).length : ℤ) + (shortest x).2 = n at *
    generalize natToBytes (shortest x).1 = ds at *
    rw [if_pos (by simp only [Bool.or_eq_true, decide_eq_true_eq]; omega)]
    cases hw with
    | whole => omega
    | point => omega
    | fraction zs _ _ hz =>
      intro h
      have hc : c! 'e' ∈ formatE ds (n - 1) := by unfold formatE; simp
      rw [h] at hc
      simp only [List.mem_cons, List.mem_append] at hc
      rcases hc with h | h | h | h
      · revert h; decide
      · revert h; decide
      · have := hz.2 _ h; revert this; decide
      · exact hd h
    | exponent w es _ hm he =>
      intro h
      have hes := (numeral_natToBytes (n - 1).natAbs).unique he
      have hl : (natToBytes (n - 1).natAbs).length < 2 := by
        have : ∀ k : Nat, k < 10 → (natToBytes k).length < 2 := by decide
        exact this _ (by omega)
      unfold formatE at h
      simp only at h
      rw [if_pos hl, hes] at h
      have h' := congrArg List.length h
      cases hm <;> simp at h'
  rw [fmtFloat_finite hf]
  cases ht with
  | nan h => rw [(not_special hf).1] at h; cases h
  | zero h => exact absurd h h0
  | infinite h | negInfinite h => rw [(not_special hf).2] at h; cases h
  | positive m e ds w _ _ hneg hs' hn' hw =>
    obtain ⟨rfl, rfl⟩ := hs'.unique hf h0 hs
    rw [hn'.unique hn] at hw
    rw [if_neg (by simp [hneg])]
    exact hmag hw
  | negative m e ds w _ _ hneg hs' hn' hw =>
    obtain ⟨rfl, rfl⟩ := hs'.unique hf h0 hs
    rw [hn'.unique hn] at hw
    rw [if_pos hneg]
    intro h
    exact hmag hw (List.cons.inj h).2

end JP
