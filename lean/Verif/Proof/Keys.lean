import Verif.Model.Sprint
import Verif.Model.Machine
import Verif.Spec.Keys
import Verif.Proof.JsText
/-! Names computed by expressions. -/
namespace JP
open Spec F64

/-! ### Whole numbers -/

/-- No other float is nearer. -/
theorem nearest_mag {x : F64} (hf : x.Finite) {m : Nat} {e : ℤ} (h : Rounds (signedDec x m e) x) {k : Nat} (hk : k < infMag) :
    |magVal x.mag - m * 10 ^ e| ≤ |magVal k - m * 10 ^ e| := by
  have := h.nearest hf (mk' x.neg? k) (by unfold F64.Finite; rw [finite_mk' hk]; exact hk)
  rw [val_mk' hk] at this
  unfold F64.val signedDec at this
  cases hn : x.neg? <;> rw [hn] at this <;> simp at this
  · exact this
  · rw [← abs_neg, ← abs_neg (magVal k - _)]
    convert this using 2 <;> ring

theorem whole_mag (n : Nat) (h : n ≤ 2 ^ 53) : ∃ m, m < infMag ∧ magVal m = n := by
  obtain ⟨m, h1, h2⟩ := representable n 0 h (by omega) (by
    rw [zpow_zero, mul_one]
    have : (n : ℚ) ≤ 2 ^ 53 := by exact_mod_cast h
    exact lt_of_le_of_lt this (pow_lt_pow_right₀ (by norm_num) (by norm_num)))
  exact ⟨m, h1, by rw [h2, zpow_zero, mul_one]⟩

/-- A number without zeros at the end. -/
theorem trim_zeros (n : Nat) (h : 0 < n) : ∃ m j : Nat, n = m * 10 ^ j ∧ m % 10 ≠ 0 := by
  induction n using Nat.strongRecOn with
  | _ n ih =>
    by_cases h1 : n % 10 = 0
    · obtain ⟨m, j, h2, h3⟩ := ih (n / 10) (by omega) (by omega)
      exact ⟨m, j + 1, by rw [pow_succ, ← mul_assoc, ← h2]; omega, h3⟩
    · exact ⟨n, 0, by simp, h1⟩

theorem trim_unique {a b : Nat} {i j : Nat} (h : a * 10 ^ i = b * 10 ^ j) (ha : a % 10 ≠ 0) (hb : b % 10 ≠ 0) : a = b ∧ i = j := by
  induction i generalizing j with
  | zero =>
    cases j with
    | zero => simpa using h
    | succ j => rw [pow_zero, mul_one, pow_succ, ← mul_assoc] at h; omega
  | succ i ih =>
    cases j with
    | zero => rw [pow_zero, mul_one, pow_succ, ← mul_assoc] at h; omega
    | succ j =>
      rw [pow_succ, pow_succ, ← mul_assoc, ← mul_assoc] at h
      obtain ⟨h1, h2⟩ := ih (Nat.eq_of_mul_eq_mul_right (by norm_num) h)
      exact ⟨h1, by rw [h2]⟩

/-- The shortest decimal of an integer of at most 53 bits is that integer. -/
theorem shortest_whole {x : F64} (hf : x.Finite) {n : Nat} (hn : 0 < n) (hv : magVal x.mag = n) (hb : n ≤ 2 ^ 53) {m : Nat} {e : ℤ}
    (hs : Shortest x m e) : ∃ j : Nat, e = j ∧ m * 10 ^ j = n := by
  obtain ⟨M, J, hM, hM'⟩ := trim_zeros n hn
  have hval : signedDec x M J = x.val := by
    unfold signedDec F64.val
    rw [hv, hM]
    push_cast
    rw [zpow_natCast]
  have hr : Rounds (signedDec x M J) x := by rw [hval]; exact rounds_val hf
  -- an upper bound that excludes a decimal
  have below : ¬ (m : ℚ) * 10 ^ e < n - 1 / 2 := by
    intro hlt
    obtain ⟨k, h1, h2⟩ := whole_mag (n - 1) (by omega)
    have := nearest_mag hf hs.reads h1
    rw [hv, h2, Nat.cast_sub hn, Nat.cast_one, abs_of_nonneg (by linarith)] at this
    rcases abs_cases ((n : ℚ) - 1 - m * 10 ^ e) with ⟨h3, -⟩ | ⟨h3, -⟩ <;> rw [h3] at this <;> linarith
  have hpos : (0 : ℚ) ≤ m * 10 ^ e := by positivity
  -- if it is an integer, it is the right one
  have int : ∀ j : Nat, e = j → m * 10 ^ j = n := by
    intro j hj
    have hq : (m : ℚ) * 10 ^ e = ((m * 10 ^ j : Nat) : ℚ) := by rw [hj]; push_cast; rw [zpow_natCast]
    by_contra hne
    rcases Nat.lt_or_gt_of_ne hne with hlt | hgt
    · apply below
      rw [hq]
      have : ((m * 10 ^ j : Nat) : ℚ) + 1 ≤ n := by exact_mod_cast hlt
      linarith
    · have hge : (n : ℚ) + 1 ≤ ((m * 10 ^ j : Nat) : ℚ) := by exact_mod_cast hgt
      by_cases h53 : n + 1 ≤ 2 ^ 53
      · obtain ⟨k, h1, h2⟩ := whole_mag (n + 1) h53
        have := nearest_mag hf hs.reads h1
        rw [hv, h2, hq, abs_of_nonpos (by linarith)] at this
        push_cast at this hge
        rw [abs_of_nonpos (by linarith)] at this
        linarith
      · -- the digits of 2^53 are all needed
        have hn53 : n = 2 ^ 53 := by omega
        have hM16 : M = 9007199254740992 := by
          have h0 : M * 10 ^ J = 9007199254740992 * 10 ^ 0 := by rw [← hM, hn53]; norm_num
          exact (trim_unique h0 hM' (by norm_num)).1
        have hcl := hs.closest M J hr
        by_cases hk : ∀ k, m < 10 ^ k → M < 10 ^ k
        · have := hcl hk
          rw [hval, sub_self, abs_zero] at this
          have h0 := abs_eq_zero.1 (le_antisymm this (abs_nonneg _))
          have hm : magVal x.mag = m * 10 ^ e := by
            have h1 := sub_eq_zero.1 h0
            unfold signedDec F64.val at h1
            cases hs : x.neg? <;> rw [hs] at h1 <;> simp at h1 <;> linarith
          rw [hv, hq] at hm
          exact hne (by exact_mod_cast hm.symm)
        · push Not at hk
          obtain ⟨k, h1, h2⟩ := hk
          -- m has at most 15 digits, so it is a multiple of 10 that is too far away
          have hk15 : k ≤ 15 := by
            by_contra h
            have : 10 ^ 16 ≤ 10 ^ k := Nat.pow_le_pow_right (by norm_num) (by omega)
            rw [hM16] at h2
            omega
          have hm15 : m < 10 ^ 15 := lt_of_lt_of_le h1 (Nat.pow_le_pow_right (by norm_num) hk15)
          have hj : 1 ≤ j := by
            by_contra h
            have hj0 : j = 0 := by omega
            subst hj0
            simp at hgt
            omega
          obtain ⟨k', g1, g2⟩ := representable (2 ^ 52 + 1) 1 (by norm_num) (by norm_num) (by
            have : ((2 ^ 52 + 1 : Nat) : ℚ) * 2 ^ (1 : ℤ) < 2 ^ 54 := by norm_num
            exact lt_trans this (pow_lt_pow_right₀ (by norm_num) (by norm_num)))
          have := nearest_mag hf hs.reads g1
          rw [hv, g2, hq, abs_of_nonpos (by linarith)] at this
          obtain ⟨i, rfl⟩ : ∃ i, j = i + 1 := ⟨j - 1, by omega⟩
          have hmul : m * 10 ^ (i + 1) = 10 * (m * 10 ^ i) := by rw [pow_succ]; ring
          have hge2 : n + 8 ≤ m * 10 ^ (i + 1) := by rw [hmul] at hgt ⊢; rw [hn53] at hgt ⊢; omega
          have hge3 : (n : ℚ) + 8 ≤ ((m * 10 ^ (i + 1) : Nat) : ℚ) := by exact_mod_cast hge2
          have hn' : (n : ℚ) = 2 ^ 53 := by rw [hn53]; norm_num
          rw [abs_of_nonpos (by rw [hn'] at hge3; push_cast at *; norm_num at *; linarith)] at this
          rw [hn'] at this hge3
          push_cast at this
          norm_num at this hge3
          linarith
  rcases Int.lt_or_le e 0 with he | he
  · exfalso
    by_cases hk : ∀ k, m < 10 ^ k → M < 10 ^ k
    · have := hs.closest M J hr hk
      rw [hval, sub_self, abs_zero] at this
      have h0 := abs_eq_zero.1 (le_antisymm this (abs_nonneg _))
      have hm : magVal x.mag = m * 10 ^ e := by
        have h1 := sub_eq_zero.1 h0
        unfold signedDec F64.val at h1
        cases hs : x.neg? <;> rw [hs] at h1 <;> simp at h1 <;> linarith
      -- then m ends with a zero
      obtain ⟨i, hi⟩ : ∃ i : Nat, e = -((i + 1 : Nat) : ℤ) := ⟨(-e).toNat - 1, by omega⟩
      have h10 : (n : ℚ) * 10 ^ (i + 1) = m := by
        rw [hv, hi, zpow_neg, zpow_natCast] at hm
        rw [hm]
        field_simp
      have hz : n * 10 ^ (i + 1) = m := by exact_mod_cast h10
      have := hs.trimmed
      rw [← hz, pow_succ, ← mul_assoc] at this
      omega
    · push Not at hk
      obtain ⟨k, h1, h2⟩ := hk
      apply below
      have h3 : (10 : ℚ) ^ e ≤ 10 ^ (-1 : ℤ) := zpow_le_zpow_right₀ (by norm_num) (by omega)
      have h4 : m < n := lt_of_lt_of_le (lt_of_lt_of_le h1 h2) (by rw [hM]; exact Nat.le_mul_of_pos_right _ (by positivity))
      have h5 : (m : ℚ) + 1 ≤ n := by exact_mod_cast h4
      have h6 : (m : ℚ) * 10 ^ e ≤ m * 10 ^ (-1 : ℤ) := mul_le_mul_of_nonneg_left h3 (by positivity)
      have h7 : (m : ℚ) * 10 ^ (-1 : ℤ) = m / 10 := by norm_num [div_eq_mul_inv]
      have h8 : (0 : ℚ) ≤ m := by positivity
      rw [h7] at h6
      linarith
  · obtain ⟨j, hj⟩ : ∃ j : Nat, e = j := ⟨e.toNat, by omega⟩
    exact ⟨j, hj, int j hj⟩


/-! ### Texts of numbers -/

private theorem special_nan {x : F64} (h : x.isNaN = true) : x.mag ≠ 0 ∧ x.isInf = false ∧ ¬ x.Finite := by
  have hi : infMag = 0x7FF * 2 ^ 52 := rfl
  simp only [isNaN, isInf, F64.Finite, decide_eq_true_eq, beq_eq_false_iff_ne] at *
  omega

private theorem special_inf {x : F64} (h : x.isInf = true) : x.mag ≠ 0 ∧ ¬ x.Finite := by
  have hi : infMag = 0x7FF * 2 ^ 52 := rfl
  simp only [isInf, F64.Finite, beq_iff_eq] at *
  omega

theorem goMag_format {ds : Bytes} (hd : ds ≠ []) {n : ℤ} {w : Bytes} (h : GoMag ds n w) :
    w = if n - 1 < -4 || n - 1 ≥ 6 then formatE ds (n - 1) else formatF ds n := by
  have hl : 0 < ds.length := List.length_pos_iff.2 hd
  cases h with
  | whole zs h1 h2 h3 =>
    rw [if_neg (by simp only [Bool.or_eq_true, decide_eq_true_eq]; omega)]
    unfold formatF
    rw [if_neg (by omega), if_pos h1, zeros_eq.1 h3]
  | point a b h1 h2 h3 h4 h5 =>
    rw [if_neg (by simp only [Bool.or_eq_true, decide_eq_true_eq]; omega)]
    have hb : 0 < b.length := List.length_pos_iff.2 h5
    have hlen : ds.length = a.length + b.length := by rw [h1, List.length_append]
    unfold formatF
    rw [if_neg (by omega), if_neg (by omega), h1, ← h4]
    simp
  | fraction zs h1 h2 h3 =>
    rw [if_neg (by simp only [Bool.or_eq_true, decide_eq_true_eq]; omega)]
    unfold formatF
    rw [if_pos h2, zeros_eq.1 h3]
  | exponent w es h1 h2 h3 =>
    rw [if_pos (by simp only [Bool.or_eq_true, decide_eq_true_eq]; omega)]
    unfold formatE
    cases h3.unique (numeral_natToBytes _)
    cases h2 <;> rfl

theorem format_goMag {ds : Bytes} (hd : ds ≠ []) {n : ℤ} :
    GoMag ds n (if n - 1 < -4 || n - 1 ≥ 6 then formatE ds (n - 1) else formatF ds n) := by
  by_cases h : (n - 1 < -4 || n - 1 ≥ 6) = true
  · rw [if_pos h]
    simp only [Bool.or_eq_true, decide_eq_true_eq] at h
    have hm : ∃ w, Mantissa ds w ∧ formatE ds (n - 1) = w ++ c! 'e' :: expSign (n - 1) :: twoDigits (natToBytes (n - 1).natAbs) := by
      match ds, hd with
      | [d], _ => exact ⟨_, .one d, rfl⟩
      | d :: c :: r, _ => exact ⟨_, .more d c r, rfl⟩
    obtain ⟨w, h1, h2⟩ := hm
    rw [h2]
    exact .exponent _ _ (by omega) h1 (numeral_natToBytes _)
  · rw [if_neg h]
    simp only [Bool.or_eq_true, decide_eq_true_eq] at h
    unfold formatF
    split
    · exact .fraction _ (by omega) (by assumption) (zeros_eq.2 rfl)
    · split
      · exact .whole _ (by assumption) (by omega) (zeros_eq.2 rfl)
      · next h3 h4 =>
        refine .point _ _ (List.take_append_drop _ _).symm (by omega) (by omega) ?_ ?_
        · rw [List.length_take]; omega
        · intro h
          have := congrArg List.length h
          rw [List.length_drop, List.length_nil] at this
          omega

theorem goNumber_format {x : F64} {t : Bytes} (h : GoNumber x t) : fmtFloat x = t := by
  have key : ∀ {m : Nat} {e : ℤ} {ds w : Bytes}, x.Finite → x.mag ≠ 0 → Shortest x m e → Numeral m ds → GoMag ds (ds.length + e) w →
      formatMag x = w := by
    intro m e ds w hf h0 hs hn hg
    obtain ⟨rfl, rfl⟩ := hs.unique hf h0 (shortest_spec hf h0)
    cases hn.unique (numeral_natToBytes _)
    rw [goMag_format hn.1.1 hg]
    unfold formatMag
    rw [if_neg h0]
  cases h with
  | nan h => simp [fmtFloat, h]
  | zero h hn => simp [fmtFloat, formatMag, h, hn, isNaN, isInf, infMag]
  | negZero h hn => simp [fmtFloat, formatMag, h, hn, isNaN, isInf, infMag]
  | infinite h hn =>
    have : x.isNaN = false := by by_contra h'; rw [(special_nan (by simpa using h')).2.1] at h; cases h
    simp [fmtFloat, h, hn, this]
  | negInfinite h hn =>
    have : x.isNaN = false := by by_contra h'; rw [(special_nan (by simpa using h')).2.1] at h; cases h
    simp [fmtFloat, h, hn, this]
  | positive m e ds w hf h0 hn hs hd hg => rw [fmtFloat_finite hf, hn, key hf h0 hs hd hg]; rfl
  | negative m e ds w hf h0 hn hs hd hg => rw [fmtFloat_finite hf, hn, key hf h0 hs hd hg]; rfl

theorem format_goNumber (x : F64) : GoNumber x (fmtFloat x) := by
  by_cases hf : x.Finite
  · by_cases h0 : x.mag = 0
    · cases hn : x.neg?
      · rw [goNumber_format (.zero x h0 hn)]; exact .zero x h0 hn
      · rw [goNumber_format (.negZero x h0 hn)]; exact .negZero x h0 hn
    · have hs := shortest_spec hf h0
      have hd := numeral_natToBytes (shortest x).1
      have hg := format_goMag (n := (natToBytes (shortest x).1).length + (shortest x).2) hd.1.1
      cases hn : x.neg?
      · have := GoNumber.positive x _ _ _ _ hf h0 hn hs hd hg
        rwa [goNumber_format this]
      · have := GoNumber.negative x _ _ _ _ hf h0 hn hs hd hg
        rwa [goNumber_format this]
  · cases hi : x.isInf
    · have : x.isNaN = true := by
        have hi' : infMag = 0x7FF * 2 ^ 52 := rfl
        simp only [isNaN, isInf, F64.Finite, decide_eq_true_eq, beq_eq_false_iff_ne] at *
        omega
      rw [goNumber_format (.nan x this)]; exact .nan x this
    · cases hn : x.neg?
      · rw [goNumber_format (.infinite x hi hn)]; exact .infinite x hi hn
      · rw [goNumber_format (.negInfinite x hi hn)]; exact .negInfinite x hi hn

/-! ### Texts of values -/

theorem blanks_eq : ∀ ts : List Bytes, blanks ts = spaced ts
  | [] => rfl
  | [_] => rfl
  | t :: u :: ts => by rw [blanks, spaced, blanks_eq (u :: ts)] <;> simp

theorem sprintMembers_eq (env : Env) : ∀ kvs : List (Bytes × V), sprintMembers env kvs = kvs.map fun p => (p.1, sprint env p.2)
  | [] => rfl
  | (k, x) :: kvs => by rw [sprintMembers, sprintMembers_eq env kvs]; rfl

theorem sprints_eq (env : Env) : ∀ xs : List V, sprints env xs = xs.map (sprint env)
  | [] => rfl
  | x :: xs => by rw [sprints, sprints_eq env xs]; rfl

theorem insertKey_perm (k t : Bytes) : ∀ r, (insertKey k t r).Perm ((k, t) :: r)
  | [] => .refl _
  | (k', t') :: r => by
    unfold insertKey
    split
    · exact .refl _
    · exact ((insertKey_perm k t r).cons _).trans (.swap _ _ _)

theorem sortKeys_perm : ∀ r, (sortKeys r).Perm r
  | [] => .refl _
  | (k, t) :: r => (insertKey_perm k t _).trans ((sortKeys_perm r).cons _)

theorem bytes_lt_or {a b : Bytes} (h : a ≠ b) : a < b ∨ b < a := by
  rcases Decidable.em (a < b) with h1 | h1
  · exact .inl h1
  · rcases Decidable.em (b < a) with h2 | h2
    · exact .inr h2
    · exact absurd (List.le_antisymm (List.not_lt.1 h2) (List.not_lt.1 h1)) h

theorem insertKey_sorted (k t : Bytes) : ∀ r : List (Bytes × Bytes), r.Pairwise (fun a b => a.1 < b.1) → (∀ p ∈ r, k ≠ p.1) →
    (insertKey k t r).Pairwise (fun a b => a.1 < b.1)
  | [], _, _ => by simp [insertKey]
  | (k', t') :: r, h, hk => by
    rw [List.pairwise_cons] at h
    unfold insertKey
    split
    · next hlt =>
      refine List.pairwise_cons.2 ⟨?_, List.pairwise_cons.2 h⟩
      intro p hp
      rcases List.mem_cons.1 hp with rfl | hp
      · exact hlt
      · exact List.lt_trans hlt (h.1 p hp)
    · next hlt =>
      refine List.pairwise_cons.2 ⟨?_, insertKey_sorted k t r h.2 fun p hp => hk p (by simp [hp])⟩
      intro p hp
      rcases List.mem_cons.1 ((insertKey_perm k t r).mem_iff.1 hp) with rfl | hp
      · rcases bytes_lt_or (hk (k', t') (by simp)) with h1 | h1
        · exact absurd h1 hlt
        · exact h1
      · exact h.1 p hp

theorem sortKeys_sorted : ∀ r : List (Bytes × Bytes), (r.map Prod.fst).Nodup → (sortKeys r).Pairwise (fun a b => a.1 < b.1)
  | [], _ => .nil
  | (k, t) :: r, h => by
    rw [List.map_cons, List.nodup_cons] at h
    refine insertKey_sorted k t _ (sortKeys_sorted r h.2) ?_
    rintro p hp rfl
    exact h.1 (List.mem_map.2 ⟨p, (sortKeys_perm r).mem_iff.1 hp, rfl⟩)

theorem memberTexts_eq (env : Env) : ∀ kvs : List (Bytes × V), memberTexts kvs (sprints env (kvs.map Prod.snd)) =
    (kvs.map fun p => (p.1, sprint env p.2)).map fun (k, t) => k ++ c! ':' :: t
  | [] => rfl
  | (k, x) :: kvs => by
    simp only [List.map_cons, sprints, memberTexts, memberTexts_eq env kvs]

mutual
theorem goText_sprint (env : Env) : ∀ {v : V} {t : Bytes}, GoText v t → sprint env v = t
  | _, _, .null => rfl
  | _, _, .true => rfl
  | _, _, .false => rfl
  | _, _, .gint n t h => (h.unique (integerText_intToBytes _)).symm
  | _, _, .int n t h => (h.unique (integerText_intToBytes _)).symm
  | _, _, .float x t h => goNumber_format h
  | _, _, .str s => rfl
  | _, _, .num s => rfl
  | _, _, .arr xs ts h => by
    rw [sprint, goTexts_sprints env h, blanks_eq]
    rfl
  | _, _, .obj kvs sorted ts h1 h2 h => by
    rw [sprint, ← goTexts_sprints env h, blanks_eq, memberTexts_eq, sprintMembers_eq]
    have hn : ((kvs.map fun p => (p.1, sprint env p.2)).map Prod.fst).Nodup := by
      rw [List.map_map]
      refine (h1.map _).nodup_iff.1 ?_
      rw [List.Nodup, List.pairwise_map]
      refine h2.imp ?_
      intro a b hab heq
      have heq' : a.1 = b.1 := heq
      rw [heq'] at hab
      exact List.lt_irrefl _ hab
    have : sortKeys (kvs.map fun p => (p.1, sprint env p.2)) = sorted.map fun p => (p.1, sprint env p.2) := by
      refine List.Perm.eq_of_pairwise (le := fun a b => a.1 < b.1) ?_ (sortKeys_sorted _ hn) (List.pairwise_map.2 h2)
        ((sortKeys_perm _).trans (h1.map _).symm)
      intro a b _ _ hab hba
      exact absurd hba (List.lt_asymm hab)
    rw [this]
    simp only [List.append_assoc]
theorem goTexts_sprints (env : Env) : ∀ {xs : List V} {ts : List Bytes}, GoTexts xs ts → sprints env xs = ts
  | _, _, .nil => rfl
  | _, _, .cons x xs t ts h hs => by rw [sprints, goText_sprint env h, goTexts_sprints env hs]
end


theorem perm_of_map {α β : Type} {f : α → β} : ∀ {l' : List β} {l : List α}, l'.Perm (l.map f) → ∃ l2 : List α, l2.Perm l ∧ l2.map f = l'
  | l', l, h => by
    have := h.symm
    generalize hm : l.map f = m at this
    clear h
    induction this generalizing l with
    | nil => exact ⟨l, .refl _, hm⟩
    | cons x _ ih =>
      cases l with
      | nil => cases hm
      | cons a l =>
        cases hm
        obtain ⟨l2, h1, h2⟩ := ih _ rfl
        exact ⟨a :: l2, h1.cons _, by rw [List.map_cons, h2]⟩
    | swap x y l0 =>
      match l, hm with
      | a :: b :: l, hm => cases hm; exact ⟨b :: a :: l, .swap _ _ _, rfl⟩
    | trans _ _ ih1 ih2 =>
      obtain ⟨l2, h1, h2⟩ := ih1 _ hm
      obtain ⟨l3, h3, h4⟩ := ih2 _ h2
      exact ⟨l3, h3.trans h1, h4⟩

theorem goTexts_of (env : Env) : ∀ {xs : List V}, (∀ x ∈ xs, GoText x (sprint env x)) → GoTexts xs (sprints env xs)
  | [], _ => .nil
  | x :: xs, h => .cons _ _ _ _ (h x (by simp)) (goTexts_of env fun y hy => h y (by simp [hy]))

mutual
/-- Every value of a document has a text. -/
theorem sprint_goText (env : Env) : ∀ {v : V}, v.WF → GoText v (sprint env v)
  | .null, _ => .null
  | .bool true, _ => .true
  | .bool false, _ => .false
  | .gint n, _ => .gint n _ (integerText_intToBytes _)
  | .int n, _ => .int n _ (integerText_intToBytes _)
  | .float x, _ => .float x _ (format_goNumber x)
  | .str s, _ => .str s
  | .num s, _ => .num s
  | .arr xs, h => by
    have := GoText.arr xs _ (goTexts_of env (sprints_goText env h.2))
    rwa [goText_sprint env this]
  | .obj kvs, h => by
    have hm := sprintMembers_goText env h.2.2
    obtain ⟨sorted, h1, h2⟩ := perm_of_map (f := fun p : Bytes × V => (p.1, sprint env p.2))
      (sortKeys_perm (kvs.map fun p => (p.1, sprint env p.2)))
    have hs : sorted.Pairwise (fun a b => a.1 < b.1) := by
      have := sortKeys_sorted (kvs.map fun p => (p.1, sprint env p.2)) (by rw [List.map_map]; exact h.2.1)
      rw [← h2] at this
      rw [List.pairwise_map] at this
      exact this
    have := GoText.obj kvs sorted _ h1 hs (goTexts_of env (by
      intro x hx
      obtain ⟨p, hp, rfl⟩ := List.mem_map.1 hx
      exact hm p (h1.mem_iff.1 hp)))
    rwa [goText_sprint env this]
theorem sprints_goText (env : Env) : ∀ {xs : List V}, WFs xs → ∀ x ∈ xs, GoText x (sprint env x)
  | [], _, _, h => by cases h
  | v :: vs, hw, x, h => by
    rcases List.mem_cons.1 h with e | h
    · rw [e]; exact sprint_goText env hw.1
    · exact sprints_goText env hw.2 x h
theorem sprintMembers_goText (env : Env) : ∀ {kvs : List (Bytes × V)}, WFm kvs → ∀ p ∈ kvs, GoText p.2 (sprint env p.2)
  | [], _, _, h => by cases h
  | (k, v) :: kvs, hw, p, h => by
    rcases List.mem_cons.1 h with e | h
    · rw [e]; exact sprint_goText env hw.1
    · exact sprintMembers_goText env hw.2 p h
end

/-! ### The names that the code uses -/

theorem integralPart_whole {x : F64} {n : ℤ} (hf : x.Finite) (h : x.val = n) : x.IntegralPart n := by
  refine ⟨hf, ?_⟩
  rw [h]
  split <;> simp

theorem f2i_whole (env : Env) {x : F64} {n : ℤ} (hf : x.Finite) (h : x.val = n) (hn : |n| ≤ 2 ^ 53) : (f2i env x).toInt = n := by
  obtain ⟨h1, h2⟩ := F64.not_special hf
  have := abs_le.1 hn
  simp only [f2i, h1, h2, Bool.or_self, Bool.false_eq_true, if_false, trunc_spec (integralPart_whole hf h)]
  rw [if_pos ⟨by omega, by omega⟩, Int64.toInt_ofInt_of_le (by omega) (by omega)]

/-- JavaScript's text of an integer of at most 53 bits is its decimal text. -/
theorem numberText_whole {x : F64} {n : ℤ} (hf : x.Finite) (h : x.val = n) (hn : |n| ≤ 2 ^ 53) {t : Bytes} (ht : NumberText x t) :
    IntegerText n t := by
  have hp := magVal_nonneg x.mag
  have key : ∀ {m : Nat} {e : ℤ} {ds w : Bytes} (k : Nat), magVal x.mag = k → k ≤ 2 ^ 53 → x.mag ≠ 0 → Shortest x m e → Numeral m ds →
      MagText ds (ds.length + e) w → 0 < k ∧ Numeral k w := by
    intro m e ds w k hk hb h0 hs hd hg
    have hk0 : 0 < k := by
      rcases Nat.eq_zero_or_pos k with h | h
      · exfalso
        have : magVal 0 < magVal x.mag := magVal_mono (Nat.pos_of_ne_zero h0)
        rw [hk, h, magVal_zero] at this
        simp at this
      · exact h
    obtain ⟨j, rfl, hj⟩ := shortest_whole hf hk0 hk hb hs
    have hmp := hs.pos hf h0
    have hdl : ds.length ≤ 16 := by
      have h1 := (hd.length hmp).1
      by_contra h
      have : 10 ^ 16 ≤ 10 ^ (ds.length - 1) := Nat.pow_le_pow_right (by norm_num) (by omega)
      have : m ≤ m * 10 ^ j := Nat.le_mul_of_pos_right _ (by positivity)
      omega
    have hjl : ds.length + (j : ℤ) ≤ 16 := by
      have h1 := (hd.length hmp).1
      have hd0 : 0 < ds.length := List.length_pos_iff.2 hd.1.1
      by_contra h
      have h2 : 10 ^ (ds.length - 1) * 10 ^ j ≤ m * 10 ^ j := Nat.mul_le_mul_right _ h1
      rw [← pow_add] at h2
      have : 10 ^ 16 ≤ 10 ^ (ds.length - 1 + j) := Nat.pow_le_pow_right (by norm_num) (by omega)
      omega
    refine ⟨hk0, ?_⟩
    cases hg with
    | whole zs h1 h2 h3 =>
      rw [zeros_eq.1 h3, show ((ds.length : ℤ) + j - ds.length).toNat = j by omega]
      refine ⟨⟨by simp [hd.1.1], ?_⟩, ?_, ?_⟩
      · intro c hc
        rcases List.mem_append.1 hc with h | h
        · exact hd.1.2 c h
        · rw [(List.mem_replicate.1 h).2]; exact ⟨by decide, by decide⟩
      · rw [← hj, ← hd.2.1]
        clear h1 h2 h3 hjl hj hs
        induction j with
        | zero => simp
        | succ j ih =>
          rw [List.replicate_succ', ← List.append_assoc, decimal_append, ih, pow_succ]
          simp [decimal]
          ring
      · intro h
        exfalso
        have hne := hd.1.1
        cases ds with
        | nil => exact hne rfl
        | cons d r =>
          have hz := hd.2.2 (by simpa using h)
          rw [hz] at hd
          have := hd.2.1
          rw [show decimal [c! '0'] = 0 from rfl] at this
          omega
    | point a b h1 h2 h3 h4 h5 =>
      have : 0 < b.length := List.length_pos_iff.2 h5
      have : ds.length = a.length + b.length := by rw [h1, List.length_append]
      omega
    | fraction zs h1 h2 h3 => have := List.length_pos_iff.2 hd.1.1; omega
    | exponent w es h1 h2 h3 => omega
  have hmag : magVal x.mag = n.natAbs := by
    have := abs_val x
    rw [h] at this
    rw [← this, Nat.cast_natAbs]
    push_cast
    rfl
  have hb : n.natAbs ≤ 2 ^ 53 := by have := abs_le.1 hn; omega
  cases ht with
  | nan h' => exact absurd hf (special_nan h').2.2
  | infinite h' | negInfinite h' => exact absurd hf (special_inf h').2
  | zero h' =>
    have : n.natAbs = 0 := by
      have h0 : magVal x.mag = 0 := by rw [h']; exact magVal_zero
      rw [hmag] at h0
      exact_mod_cast h0
    have : n = ((0 : Nat) : ℤ) := by omega
    rw [this]
    exact .nonneg 0 _ (numeral_natToBytes 0)
  | positive m e ds w hf h0 hs h1 h2 h3 =>
    obtain ⟨-, hN⟩ := key _ hmag hb h0 h1 h2 h3
    have : n = (n.natAbs : ℤ) := by
      have h4 : (n : ℚ) = n.natAbs := by rw [← h, ← hmag]; unfold F64.val; rw [hs]; rfl
      have h5 : (n : ℚ) = ((n.natAbs : ℤ) : ℚ) := by rw [h4]; rfl
      exact Int.cast_injective h5
    rw [this]
    exact .nonneg _ _ (by simpa using hN)
  | negative m e ds w hf h0 hs h1 h2 h3 =>
    obtain ⟨h5, hN⟩ := key _ hmag hb h0 h1 h2 h3
    have : n = -(n.natAbs : ℤ) := by
      have h4 : (n : ℚ) = -n.natAbs := by rw [← h, ← hmag]; unfold F64.val; rw [hs]; rfl
      exact_mod_cast h4
    rw [this]
    exact .neg _ _ (by simpa using h5) (by simpa using hN)

theorem namesAsJs (env : Env) {v : V} {t : Bytes} (hv : NamesAsJs v) (ht : JsText v t) : mapKey env v = t := by
  cases hv with
  | str s => cases ht; rfl
  | bool b => cases ht <;> rfl
  | gint n => cases ht with | gint _ _ h => exact (h.unique (integerText_intToBytes _)).symm
  | int n => cases ht with | int _ _ h => exact (h.unique (integerText_intToBytes _)).symm
  | whole x n hf hx hn =>
    cases ht with
    | float _ _ h =>
      rw [mapKey, f2i_whole env hf hx hn]
      exact ((numberText_whole hf hx hn h).unique (integerText_intToBytes _)).symm

/-! ### The names that JavaScript would not use -/

private theorem not_digit {c : UInt8} (h : (c! '0' ≤ c && c ≤ c! '9') = false) : ¬ Digit c := by
  rintro ⟨h1, h2⟩
  simp [h1, h2] at h

private theorem not_int {c : UInt8} (h : (c == c! '-' || c! '0' ≤ c && c ≤ c! '9') = false) : ¬ (c = c! '-' ∨ Digit c) := by
  simp only [Bool.or_eq_false_iff] at h
  rintro (rfl | h1)
  · exact absurd h.1 (by decide)
  · exact not_digit h.2 h1

private theorem integerText_chars {n : ℤ} {t : Bytes} (h : IntegerText n t) : ∀ c ∈ t, c = c! '-' ∨ Digit c := by
  cases h with
  | nonneg n ds h => exact fun c hc => .inr (h.1.2 c hc)
  | neg n ds h0 h =>
    intro c hc
    rcases List.mem_cons.1 hc with rfl | hc
    · exact .inl rfl
    · exact .inr (h.1.2 c hc)

/-- A number with a fraction is not written as an integer. -/
theorem numberText_fraction {x : F64} (hf : x.Finite) (hx : ∀ n : ℤ, x.val ≠ n) {t : Bytes} (ht : NumberText x t) :
    c! '.' ∈ t ∨ c! 'e' ∈ t := by
  have key : ∀ {m : Nat} {e : ℤ} {ds w : Bytes}, Shortest x m e → MagText ds (ds.length + e) w → c! '.' ∈ w ∨ c! 'e' ∈ w := by
    intro m e ds w hs hg
    cases hg with
    | whole zs h1 h2 h3 =>
      exfalso
      obtain ⟨j, rfl⟩ : ∃ j : Nat, e = j := ⟨e.toNat, by omega⟩
      -- x is the float nearest to an integer
      have hq : (m : ℚ) * 10 ^ (j : ℤ) = ((m * 10 ^ j : Nat) : ℚ) := by push_cast; rw [zpow_natCast]
      have hsmall : magVal x.mag < 2 ^ 53 := by
        by_contra hge
        rw [not_lt] at hge
        have hman := man_le x
        have he : 0 ≤ x.expo := by
          by_contra hneg
          have h1 : (2 : ℚ) ^ x.expo ≤ 2 ^ (0 : ℤ) := zpow_le_zpow_right₀ (by norm_num) (by omega)
          have h2 : (x.man : ℚ) < 2 ^ 53 := by exact_mod_cast hman
          rw [val_man] at hge
          have h3 : (x.man : ℚ) * 2 ^ x.expo ≤ x.man * 1 := mul_le_mul_of_nonneg_left (by simpa using h1) (by positivity)
          linarith
        obtain ⟨i, hi⟩ : ∃ i : Nat, x.expo = i := ⟨x.expo.toNat, by omega⟩
        have hv : magVal x.mag = ((x.man * 2 ^ i : Nat) : ℚ) := by rw [val_man, hi]; push_cast; rw [zpow_natCast]
        cases hn : x.neg?
        · exact hx ((x.man * 2 ^ i : Nat) : ℤ) (by unfold F64.val; rw [hn, hv]; push_cast; rfl)
        · exact hx (-((x.man * 2 ^ i : Nat) : ℤ)) (by unfold F64.val; rw [hn, hv]; push_cast; rfl)
      by_cases hb : m * 10 ^ j ≤ 2 ^ 53
      · obtain ⟨k, h4, h5⟩ := whole_mag _ hb
        have := nearest_mag hf hs.reads h4
        rw [hq, h5, sub_self, abs_zero] at this
        have h0 := abs_eq_zero.1 (le_antisymm this (abs_nonneg _))
        have hv : magVal x.mag = ((m * 10 ^ j : Nat) : ℚ) := by linarith
        cases hn : x.neg?
        · exact hx ((m * 10 ^ j : Nat) : ℤ) (by unfold F64.val; rw [hn, hv]; push_cast; rfl)
        · exact hx (-((m * 10 ^ j : Nat) : ℤ)) (by unfold F64.val; rw [hn, hv]; push_cast; rfl)
      · obtain ⟨k, h4, h5⟩ := whole_mag (2 ^ 53) le_rfl
        have := nearest_mag hf hs.reads h4
        have hb' : ((2 ^ 53 : Nat) : ℚ) < ((m * 10 ^ j : Nat) : ℚ) := by exact_mod_cast not_le.1 hb
        rw [hq, h5, abs_of_nonpos (by push_cast at hb' ⊢; linarith), abs_of_nonpos (by linarith)] at this
        push_cast at this
        linarith
    | point a b => exact .inl (by simp)
    | fraction zs => exact .inl (by simp)
    | exponent w es => exact .inr (by simp)
  cases ht with
  | nan h' => exact absurd hf (special_nan h').2.2
  | infinite h' | negInfinite h' => exact absurd hf (special_inf h').2
  | zero h' =>
    refine absurd ?_ (hx 0)
    unfold F64.val
    rw [h', magVal_zero]
    simp
  | positive m e ds w _ _ _ h1 _ h3 => exact key h1 h3
  | negative m e ds w _ _ _ h1 _ h3 => rcases key h1 h3 with h | h <;> simp [h]

/-- The texts of numbers do not begin with a bracket. -/
private theorem numberText_head {x : F64} {t : Bytes} (ht : NumberText x t) : ∃ c r, t = c :: r ∧ c ≠ c! '[' := by
  have dig : ∀ {m : Nat} {ds : Bytes}, Numeral m ds → ∃ c r, ds = c :: r ∧ c ≠ c! '[' := by
    intro m ds h
    cases ds with
    | nil => exact absurd rfl h.1.1
    | cons d r =>
      refine ⟨d, r, rfl, ?_⟩
      rintro rfl
      exact not_digit (by decide) (h.1.2 _ (List.mem_cons_self ..))
  cases ht with
  | nan | zero | infinite | negInfinite => exact ⟨_, _, rfl, by decide⟩
  | negative => exact ⟨_, _, rfl, by decide⟩
  | positive m e ds w _ _ _ h1 h2 h3 =>
    obtain ⟨c, r, rfl, hc⟩ := dig h2
    cases h3 with
    | whole => exact ⟨_, _, rfl, hc⟩
    | point a b h4 h5 h6 h7 h8 =>
      cases a with
      | nil => rw [List.length_nil] at h7; omega
      | cons c' a => cases h4; exact ⟨_, _, rfl, hc⟩
    | fraction => exact ⟨_, _, rfl, by decide⟩
    | exponent w es h4 h5 => cases h5 <;> exact ⟨_, _, rfl, hc⟩

private theorem integerText_head {n : ℤ} {t : Bytes} (ht : IntegerText n t) : ∃ c r, t = c :: r ∧ c ≠ c! '[' := by
  have hc := integerText_chars ht
  have hne : t ≠ [] := by
    cases ht with
    | nonneg n ds h => exact h.1.1
    | neg => simp
  cases t with
  | nil => exact absurd rfl hne
  | cons c r =>
    refine ⟨c, r, rfl, ?_⟩
    rintro rfl
    rcases hc _ (List.mem_cons_self ..) with h | h
    · exact absurd h (by decide)
    · exact not_digit (by decide) h

private theorem brackets_str (m : Nat) (r R : Bytes) (hr : r.head? ≠ some (c! '[')) : ∀ s : Bytes,
    s ++ r ≠ List.replicate (m + 1) (c! '[') ++ (s ++ R)
  | [] => by
    intro h
    apply hr
    rw [List.nil_append] at h
    rw [h]
    rfl
  | c :: s => by
    intro h
    rw [List.replicate_succ, List.cons_append, List.cons_append, List.cons.injEq] at h
    obtain ⟨rfl, h⟩ := h
    refine brackets_str m r R hr s ?_
    rw [h, List.cons_append, List.append_cons, ← List.replicate_succ']

private theorem brackets_head {t : Bytes} (h : ∃ c r, t = c :: r ∧ c ≠ c! '[') (m : Nat) (r R : Bytes) :
    t ++ r ≠ List.replicate (m + 1) (c! '[') ++ R := by
  obtain ⟨c, r', rfl, hc⟩ := h
  intro h
  rw [List.replicate_succ, List.cons_append, List.cons_append, List.cons.injEq] at h
  exact hc h.1

mutual
/-- JavaScript's text of a value is not Go's with brackets in front. -/
theorem brackets_text (env : Env) : ∀ {v : V} {t : Bytes}, JsText v t → ∀ (m : Nat) (r R : Bytes), r.head? ≠ some (c! '[') →
    t ++ r ≠ List.replicate (m + 1) (c! '[') ++ (sprint env v ++ R)
  | _, _, .null, m, r, R, _ => brackets_head ⟨_, _, rfl, by decide⟩ m r _
  | _, _, .true, m, r, R, _ => brackets_head ⟨_, _, rfl, by decide⟩ m r _
  | _, _, .false, m, r, R, _ => brackets_head ⟨_, _, rfl, by decide⟩ m r _
  | _, _, .gint n t h, m, r, R, _ => brackets_head (integerText_head h) m r _
  | _, _, .int n t h, m, r, R, _ => brackets_head (integerText_head h) m r _
  | _, _, .float x t h, m, r, R, _ => brackets_head (numberText_head h) m r _
  | _, _, .str s, m, r, R, hr => brackets_str m r R hr s
  | _, _, .obj kvs, m, r, R, _ => by
    intro h
    cases m with
    | zero => simp [sprint, List.replicate] at h
    | succ m => simp [List.replicate] at h
  | _, _, .arr xs ts h, m, r, R, hr => by
    intro h'
    refine brackets_elems env h (m + 1) r (c! ']' :: R) hr (h'.trans ?_)
    rw [sprint, List.cons_append, List.append_cons, ← List.replicate_succ', List.append_assoc]
    rfl
theorem brackets_elems (env : Env) : ∀ {xs : List V} {ts : List Bytes}, JsElems xs ts → ∀ (m : Nat) (r R : Bytes),
    r.head? ≠ some (c! '[') → joined ts ++ r ≠ List.replicate (m + 1) (c! '[') ++ (spaced (sprints env xs) ++ R)
  | _, _, .nil, m, r, R, hr => by
    intro h
    apply hr
    rw [joined, List.nil_append] at h
    rw [h]
    rfl
  | _, _, .null xs ts _, m, r, R, hr => by
    intro h
    cases ts with
    | nil =>
      apply hr
      rw [joined, List.nil_append] at h
      rw [h]
      rfl
    | cons u ts => simp [joined, List.replicate] at h
  | _, _, .cons x xs t ts _ h hs, m, r, R, hr => by
    have hsp : ∃ R', spaced (sprints env (x :: xs)) ++ R = sprint env x ++ R' := by
      cases xs with
      | nil => exact ⟨R, rfl⟩
      | cons y ys => exact ⟨_, by simp only [sprints, spaced]; rw [List.append_assoc]⟩
    obtain ⟨R', hR⟩ := hsp
    rw [hR]
    cases ts with
    | nil => exact brackets_text env h m r R' hr
    | cons u ts =>
      rw [joined, List.append_assoc]
      · exact brackets_text env h m _ R' (by simp)
      · simp
end

theorem namesOtherwise (env : Env) {v : V} {t : Bytes} (hv : NamesOtherwise v) (ht : JsText v t) : mapKey env v ≠ t := by
  cases hv with
  | null => cases ht; simp [mapKey, sprint]
  | arr xs =>
    cases ht with
    | arr _ ts h =>
      intro he
      refine brackets_elems env h 0 [] [c! ']'] (by simp) ?_
      rw [List.append_nil, ← he]
      rfl
  | obj kvs =>
    cases ht
    intro h
    simp [mapKey, sprint] at h
  | special x hx =>
    cases ht with
    | float _ _ h =>
      intro he
      have hc := integerText_chars (integerText_intToBytes (f2i env x).toInt)
      rw [mapKey] at he
      rw [he] at hc
      cases h with
      | nan => exact not_int (by decide) (hc (c! 'N') (by decide))
      | infinite => exact not_int (by decide) (hc (c! 'I') (by decide))
      | negInfinite => exact not_int (by decide) (hc (c! 'I') (by decide))
      | zero h0 =>
        refine hx ?_
        unfold F64.Finite
        rw [h0]
        decide
      | positive _ _ _ _ h | negative _ _ _ _ h => exact hx h
  | fraction x hf hx =>
    cases ht with
    | float _ _ h =>
      intro he
      have hc := integerText_chars (integerText_intToBytes (f2i env x).toInt)
      rw [mapKey] at he
      rw [he] at hc
      rcases numberText_fraction hf hx h with h | h <;> exact not_int (by decide) (hc _ h)

end JP
