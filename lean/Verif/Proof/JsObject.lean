import Verif.Proof.JsText
import Verif.Proof.JsEq
import Verif.Spec.JsObject
/-!
Texts of numbers denote the numbers they are the texts of.
-/
namespace JP
open Spec F64

/-! ### What a text denotes is unique -/

theorem Spec.Exp.unique {w : Bytes} {a b : ℤ} (ha : Exp w a) (hb : Exp w b) : a = b := by
  have hne : ∀ {ds : Bytes} {c : UInt8} {r : Bytes}, Digits ds → ds = c :: r → c ≠ c! '+' ∧ c ≠ c! '-' := by
    rintro ds c r h rfl
    have := h.2 c (by simp)
    constructor <;> rintro rfl <;> simp [Digit] at this
  cases ha with
  | none => cases hb; rfl
  | pos e sign ds he hs hd =>
    generalize hw : e :: (sign ++ ds) = w at hb
    cases hb with
    | none => cases hw
    | pos e' sign' ds' he' hs' hd' =>
      have hw := (List.cons.inj hw).2
      rcases hs with rfl | rfl <;> rcases hs' with rfl | rfl
      · rw [List.nil_append, List.nil_append] at hw; rw [hw]
      · exact absurd rfl (hne hd hw).1
      · exact absurd rfl (hne hd' hw.symm).1
      · simp at hw; rw [hw]
    | neg e' ds' he' hd' =>
      have hw := (List.cons.inj hw).2
      rcases hs with rfl | rfl
      · exact absurd rfl (hne hd hw).2
      · simp at hw
  | neg e ds he hd =>
    generalize hw : e :: c! '-' :: ds = w at hb
    cases hb with
    | none => cases hw
    | pos e' sign' ds' he' hs' hd' =>
      have hw := (List.cons.inj hw).2
      rcases hs' with rfl | rfl
      · exact absurd rfl (hne hd' hw.symm).2
      · simp at hw
    | neg e' ds' he' hd' =>
      have hw := (List.cons.inj (List.cons.inj hw).2).2
      rw [hw]

private theorem stops_dot (r : Bytes) : Spec.Stops Digit (c! '.' :: r) := by
  intro d hd
  simp at hd
  subst hd
  simp [Digit]

private theorem span_unique {a a' b b' : Bytes} (ha : All Digit a) (hb : Spec.Stops Digit b) (ha' : All Digit a')
    (hb' : Spec.Stops Digit b') (h : a ++ b = a' ++ b') : a = a' ∧ b = b' := by
  obtain ⟨h1, h2⟩ := span_digits ha hb
  obtain ⟨h3, h4⟩ := span_digits ha' hb'
  rw [h] at h1 h2
  exact ⟨h1.symm.trans h3, h2.symm.trans h4⟩

theorem Spec.Unsigned.unique {w : Bytes} {p q : ℚ} {a b : ℤ} (ha : Unsigned w p a) (hb : Unsigned w q b) : p = q := by
  cases ha with
  | whole ds ex e hd he =>
    generalize hw : ds ++ ex = w at hb
    cases hb with
    | whole ds' ex' e' hd' he' =>
      obtain ⟨h1, h2⟩ := span_unique hd.2 (exponent_spec he).1 hd'.2 (exponent_spec he').1 hw
      subst h1 h2
      rw [he.unique he']
    | point ds' fs' ex' e' hd' hf' hn' he' =>
      obtain ⟨h1, h2⟩ := span_unique hd.2 (exponent_spec he).1 hd' (stops_dot _) hw
      subst h2
      generalize hx : c! '.' :: (fs' ++ ex') = x at he
      cases he with
      | none => cases hx
      | pos c _ _ hc => have := (List.cons.inj hx).1; subst this; simp at hc
      | neg c _ hc => have := (List.cons.inj hx).1; subst this; simp at hc
  | point ds fs ex e hd hf hn he =>
    generalize hw : ds ++ c! '.' :: (fs ++ ex) = w at hb
    cases hb with
    | whole ds' ex' e' hd' he' =>
      obtain ⟨h1, h2⟩ := span_unique hd (stops_dot _) hd'.2 (exponent_spec he').1 hw
      subst h2
      generalize hx : c! '.' :: (fs ++ ex) = x at he'
      cases he' with
      | none => cases hx
      | pos c _ _ hc => have := (List.cons.inj hx).1; subst this; simp at hc
      | neg c _ hc => have := (List.cons.inj hx).1; subst this; simp at hc
    | point ds' fs' ex' e' hd' hf' hn' he' =>
      obtain ⟨h1, h2⟩ := span_unique hd (stops_dot _) hd' (stops_dot _) hw
      obtain ⟨h3, h4⟩ := span_unique hf (exponent_spec he).1 hf' (exponent_spec he').1 (List.cons.inj h2).2
      subst h1 h3 h4
      rw [he.unique he']

private theorem no_sign {w : Bytes} {q : ℚ} {e : ℤ} (c : UInt8) (hc : c = c! '+' ∨ c = c! '-') (h : Unsigned (c :: w) q e) : False := by
  have := signed_body h
  rcases hc with rfl | rfl
  · have : (c! '+' :: w) = w := by
      have h2 : signed (c! '+' :: w) = (false, w) := rfl
      rw [h2] at this
      exact (Prod.mk.inj this).2.symm
    exact absurd (congrArg List.length this) (by simp)
  · have h2 : signed (c! '-' :: w) = (true, w) := rfl
    rw [h2] at this
    exact absurd (Prod.mk.inj this).1 (by simp)

theorem Spec.DecimalText.unique {w : Bytes} {m n : Bool} {p q : ℚ} {a b : ℤ} (ha : DecimalText w m p a) (hb : DecimalText w n q b) : p = q := by
  cases ha with
  | unsigned _ _ _ h =>
    generalize hw : w = v at hb
    cases hb with
    | unsigned _ _ _ h' => exact h.unique (hw ▸ h')
    | plus v _ _ h' => exact (no_sign _ (.inl rfl) (hw ▸ h)).elim
    | minus v _ _ h' => exact (no_sign _ (.inr rfl) (hw ▸ h)).elim
  | plus v _ _ h =>
    generalize hw : c! '+' :: v = x at hb
    cases hb with
    | unsigned _ _ _ h' => exact (no_sign _ (.inl rfl) (hw ▸ h')).elim
    | plus v _ _ h' => exact h.unique ((List.cons.inj hw).2 ▸ h')
    | minus v _ _ h' => exact absurd (List.cons.inj hw).1 (by decide)
  | minus v q _ h =>
    generalize hw : c! '-' :: v = x at hb
    cases hb with
    | unsigned _ _ _ h' => exact (no_sign _ (.inr rfl) (hw ▸ h')).elim
    | plus v _ _ h' => exact absurd (List.cons.inj hw).1 (by decide)
    | minus v _ _ h' => rw [h.unique ((List.cons.inj hw).2 ▸ h')]

/-- The characters of numbers. -/
def NumberChar (c : UInt8) : Prop := Digit c ∨ c = c! '.' ∨ c = c! 'e' ∨ c = c! 'E' ∨ c = c! '+' ∨ c = c! '-'

theorem Spec.Exp.chars {w : Bytes} {e : ℤ} (h : Exp w e) : ∀ c ∈ w, NumberChar c := by
  cases h with
  | none => simp
  | pos e sign ds he hs hd =>
    intro c hc
    simp only [List.mem_cons, List.mem_append] at hc
    unfold NumberChar
    rcases hc with rfl | hc | hc
    · rcases he with h | h <;> simp [h]
    · rcases hs with rfl | rfl
      · simp at hc
      · simp at hc; simp [hc]
    · exact .inl (hd.2 c hc)
  | neg e ds he hd =>
    intro c hc
    simp only [List.mem_cons] at hc
    unfold NumberChar
    rcases hc with rfl | rfl | hc
    · rcases he with h | h <;> simp [h]
    · simp
    · exact .inl (hd.2 c hc)

theorem Spec.Unsigned.chars {w : Bytes} {q : ℚ} {e : ℤ} (h : Unsigned w q e) : w ≠ [] ∧ ∀ c ∈ w, NumberChar c := by
  cases h with
  | whole ds ex e hd he =>
    refine ⟨by simp [hd.1], fun c hc => ?_⟩
    rcases List.mem_append.1 hc with hc | hc
    · exact .inl (hd.2 c hc)
    · exact he.chars c hc
  | point ds fs ex e hd hf hn he =>
    refine ⟨by simp, fun c hc => ?_⟩
    simp only [List.mem_append, List.mem_cons] at hc
    rcases hc with hc | rfl | hc | hc
    · exact .inl (hd c hc)
    · simp [NumberChar]
    · exact .inl (hf c hc)
    · exact he.chars c hc

theorem Spec.DecimalText.chars {w : Bytes} {n : Bool} {q : ℚ} {e : ℤ} (h : DecimalText w n q e) : w ≠ [] ∧ ∀ c ∈ w, NumberChar c := by
  cases h with
  | unsigned _ _ _ h => exact h.chars
  | plus v _ _ h =>
    refine ⟨by simp, fun c hc => ?_⟩
    rcases List.mem_cons.1 hc with rfl | hc
    · simp [NumberChar]
    · exact h.chars.2 c hc
  | minus v _ _ h =>
    refine ⟨by simp, fun c hc => ?_⟩
    rcases List.mem_cons.1 hc with rfl | hc
    · simp [NumberChar]
    · exact h.chars.2 c hc

/-- What a text denotes: all numbers it can be read as are equal. -/
theorem toNumber_decimal {t : Bytes} {neg : Bool} {q : ℚ} {e : ℤ} {x y : F64} (h : DecimalText t neg q e) (hx : Rounds q x)
    (hy : ToNumber t y) : y.feq x = true := by
  have hI : ¬ NumberChar (c! 'I') := by simp [NumberChar, Digit]
  cases hy with
  | empty => exact absurd rfl h.chars.1
  | infinity => exact absurd (h.chars.2 (c! 'I') (by decide)) hI
  | negInfinity => exact absurd (h.chars.2 (c! 'I') (by decide)) hI
  | decimal _ neg' q' e' _ h' hr =>
    rw [← h.unique h'] at hr
    exact rounds_feq hr hx

/-- So a text that denotes the number `x` equals exactly the numbers that `x` equals. -/
theorem textEq_decimal {t : Bytes} {neg : Bool} {q : ℚ} {e : ℤ} {x : F64} (h : DecimalText t neg q e) (hx : Rounds q x) (y : Number) :
    TextEq t y ↔ x.feq y.toF64 = true := by
  constructor
  · rintro ⟨z, hz, he⟩
    rw [← feq_left (toNumber_decimal h hx hz)]
    exact he
  · intro he
    exact ⟨x, .decimal _ _ _ _ _ h hx, he⟩

theorem textEq_empty (y : Number) : TextEq [] y ↔ F64.zero.feq y.toF64 = true := by
  constructor
  · rintro ⟨z, hz, he⟩
    generalize hw : ([] : Bytes) = w at hz
    cases hz with
    | empty => exact he
    | infinity => cases hw
    | negInfinity => cases hw
    | decimal _ _ _ _ _ h => exact absurd hw.symm h.chars.1
  · intro he
    exact ⟨_, .empty, he⟩

/-- A text with another character is no number. -/
theorem textEq_other {t : Bytes} {c : UInt8} (hc : c ∈ t) (h : ¬ NumberChar c) (hI : c ∉ b! "-Infinity") (y : Number) : ¬ TextEq t y := by
  rintro ⟨z, hz, -⟩
  cases hz with
  | empty => simp at hc
  | infinity => exact hI (List.mem_cons_of_mem _ hc)
  | negInfinity => exact hI hc
  | decimal _ _ _ _ _ hd => exact h (hd.chars.2 c hc)

/-! ### The texts of numbers -/

theorem Spec.Numeral.unsigned {n : Nat} {ds : Bytes} (h : Numeral n ds) : Unsigned ds n 0 := by
  have := Unsigned.whole ds [] 0 h.1 .none
  simpa [h.2.1] using this

theorem Spec.IntegerText.decimal {n : Int} {t : Bytes} (h : IntegerText n t) : ∃ neg, DecimalText t neg n 0 := by
  cases h with
  | nonneg n ds h => exact ⟨_, .unsigned _ _ _ (by exact_mod_cast h.unsigned)⟩
  | neg n ds hn h => exact ⟨_, by push_cast; exact .minus _ _ _ h.unsigned⟩

theorem integerText_exists (n : Int) : ∃ t, IntegerText n t := ⟨_, integerText_intToBytes n⟩

theorem magText_exists {ds : Bytes} (hd : ds ≠ []) (n : ℤ) : ∃ w, MagText ds n w := by
  by_cases h1 : -6 < n
  · by_cases h2 : n ≤ 21
    · exact ⟨_, formatF_text h1 h2⟩
    · match ds, hd with
      | [d], _ => exact ⟨_, .exponent _ _ (.inr (by omega)) (.one d) (numeral_natToBytes _)⟩
      | d :: c :: r, _ => exact ⟨_, .exponent _ _ (.inr (by omega)) (.more d c r) (numeral_natToBytes _)⟩
  · match ds, hd with
    | [d], _ => exact ⟨_, .exponent _ _ (.inl (by omega)) (.one d) (numeral_natToBytes _)⟩
    | d :: c :: r, _ => exact ⟨_, .exponent _ _ (.inl (by omega)) (.more d c r) (numeral_natToBytes _)⟩

theorem isInf_of {x : F64} (h1 : ¬ x.Finite) (h2 : x.isNaN = false) : x.isInf = true := by
  by_contra h
  exact h1 (finite_of h2 (eq_false_of_ne_true h))

theorem numberText_exists (x : F64) : ∃ t, NumberText x t := by
  cases hn : x.isNaN with
  | true => exact ⟨_, .nan x hn⟩
  | false =>
    by_cases hf : x.Finite
    · by_cases h0 : x.mag = 0
      · exact ⟨_, .zero x h0⟩
      · have hs := shortest_spec hf h0
        have hm := numeral_natToBytes (shortest x).1
        obtain ⟨w, hw⟩ := magText_exists hm.1.1 ((natToBytes (shortest x).1).length + (shortest x).2)
        cases hg : x.neg? with
        | false => exact ⟨_, .positive x _ _ _ _ hf h0 hg hs hm hw⟩
        | true => exact ⟨_, .negative x _ _ _ _ hf h0 hg hs hm hw⟩
    · have hi := isInf_of hf hn
      cases hg : x.neg? with
      | false => exact ⟨_, .infinite x hi hg⟩
      | true => exact ⟨_, .negInfinite x hi hg⟩

theorem expSign_exp {ex : ℤ} {es : Bytes} (h : Numeral ex.natAbs es) : Exp (c! 'e' :: expSign ex :: es) ex := by
  unfold expSign
  split
  · have := Exp.neg (c! 'e') es (.inl rfl) h.1
    rwa [h.2.1, show -((ex.natAbs : Nat) : ℤ) = ex by omega] at this
  · have := Exp.pos (c! 'e') [c! '+'] es (.inl rfl) (.inr rfl) h.1
    rwa [h.2.1, show ((ex.natAbs : Nat) : ℤ) = ex by omega] at this

/-- The text of a positive number denotes its shortest decimal. -/
theorem Spec.MagText.unsigned {ds w : Bytes} {n : ℤ} (hd : Digits ds) (h : MagText ds n w) :
    ∃ e, Unsigned w (decimal ds * 10 ^ (n - ds.length)) e := by
  by_cases h1 : -6 < n ∧ n ≤ 21
  · rw [h.unique hd.1 (formatF_text h1.1 h1.2)]
    exact ⟨0, formatF_spec hd n⟩
  · cases h with
    | whole => exact absurd ⟨by omega, by assumption⟩ h1
    | point => exact absurd ⟨by omega, by assumption⟩ h1
    | fraction => exact absurd ⟨by assumption, by omega⟩ h1
    | exponent w es hn hm he =>
      have hx := expSign_exp he
      refine ⟨n - 1, ?_⟩
      cases hm with
      | one d =>
        have := Unsigned.whole [d] _ _ hd hx
        simpa using this
      | more d c r =>
        have := Unsigned.point [d] (c :: r) _ _ (fun x hx => hd.2 x (by simp at hx; simp [hx])) (fun x hx => hd.2 x (by simp at hx ⊢; tauto)) (by simp) hx
        convert this using 1
        · simp
        · simp only [List.singleton_append, List.length_cons]
          rw [show n - ((r.length + 1 + 1 : Nat) : ℤ) = n - 1 + -((r.length + 1 : Nat) : ℤ) by push_cast; ring,
            zpow_add₀ (by norm_num), zpow_neg, zpow_natCast]
          field_simp

/-- The text of a finite number denotes it. -/
theorem Spec.NumberText.decimal {x : F64} {t : Bytes} (hf : x.Finite) (h : NumberText x t) : ∃ neg q e, DecimalText t neg q e ∧ Rounds q x := by
  obtain ⟨hn, hi⟩ := not_special hf
  cases h with
  | nan h => rw [hn] at h; cases h
  | infinite h _ => rw [hi] at h; cases h
  | negInfinite h _ => rw [hi] at h; cases h
  | zero h =>
    have hr := rounds_val hf
    have hz : x.val = 0 := by
      unfold val
      rw [h, magVal_zero]
      simp
    rw [hz] at hr
    refine ⟨false, 0, 0, .unsigned _ _ _ ?_, hr⟩
    have := Unsigned.whole [c! '0'] [] 0 ⟨by simp, by simpa [All] using digit_zero⟩ .none
    simpa [Spec.decimal] using this
  | positive m e ds w _ h0 hg hs hm hw =>
    obtain ⟨ex, hu⟩ := hw.unsigned hm.1
    rw [hm.2.1, show (ds.length : ℤ) + e - ds.length = e by ring] at hu
    have hr := hs.reads
    rw [signedDec_eq, hg] at hr
    exact ⟨_, _, _, .unsigned _ _ _ hu, hr⟩
  | negative m e ds w _ h0 hg hs hm hw =>
    obtain ⟨ex, hu⟩ := hw.unsigned hm.1
    rw [hm.2.1, show (ds.length : ℤ) + e - ds.length = e by ring] at hu
    have hr := hs.reads
    rw [signedDec_eq, hg] at hr
    exact ⟨_, _, _, .minus _ _ _ hu, hr⟩

theorem inf_of {x : F64} (h : x.isInf = true) : x = .inf x.neg? := by
  have hm : x.mag = infMag := by simpa [isInf] using h
  have hm' : (F64.inf x.neg?).mag = infMag := by cases x.neg? <;> decide
  have hg : (F64.inf x.neg?).neg? = x.neg? := by cases x.neg? <;> decide
  refine finite_eq hg.symm ?_
  unfold val
  rw [hm, hm', hg]

/-- The text of a number equals exactly the numbers that the number equals. -/
theorem textEq_number {x : F64} {t : Bytes} (h : NumberText x t) (y : Number) : TextEq t y ↔ x.feq y.toF64 = true := by
  by_cases hf : x.Finite
  · obtain ⟨neg, q, e, hd, hr⟩ := h.decimal hf
    exact textEq_decimal hd hr y
  · cases hn : x.isNaN with
    | true =>
      rw [feq_nan_left hn, h.unique (.nan x hn)]
      constructor
      · intro h
        exact absurd h (textEq_other (c := c! 'N') (by decide) (by simp [NumberChar, Digit]) (by decide) y)
      · intro h; cases h
    | false =>
      have hi := isInf_of hf hn
      have hI : ¬ NumberChar (c! 'I') := by simp [NumberChar, Digit]
      have hx := inf_of hi
      cases hg : x.neg? with
      | false =>
        rw [hg] at hx
        rw [h.unique (.infinite x hi hg)]
        constructor
        · rintro ⟨z, hz, he⟩
          generalize hw : b! "Infinity" = w at hz
          cases hz with
          | empty => cases hw
          | infinity => rwa [hx]
          | negInfinity => exact absurd hw (by decide)
          | decimal _ _ _ _ _ hd => exact absurd (hd.chars.2 (c! 'I') (by rw [← hw]; decide)) hI
        · intro he
          exact ⟨x, hx ▸ .infinity, he⟩
      | true =>
        rw [hg] at hx
        rw [h.unique (.negInfinite x hi hg)]
        constructor
        · rintro ⟨z, hz, he⟩
          generalize hw : b! "-Infinity" = w at hz
          cases hz with
          | empty => cases hw
          | infinity => exact absurd hw (by decide)
          | negInfinity => rwa [hx]
          | decimal _ _ _ _ _ hd => exact absurd (hd.chars.2 (c! 'I') (by rw [← hw]; decide)) hI
        · intro he
          exact ⟨x, hx ▸ .negInfinity, he⟩

end JP
