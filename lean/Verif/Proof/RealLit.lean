import Verif.Proof.Decimal
import Verif.Proof.Literals
/-! Literals with a fraction. -/
namespace JP
open Spec F64

variable {env : Env}

theorem script_real {w : Bytes} {f : F64} (h : RealText w []) (hf : env.parseFloat w = some f) :
    parseScriptExpression env w = .ok (.float f) :=
  parseScript_written (written_one (.real _ _ _ h hf)) (gatom_expr (.real _))

theorem dot_not_digit : ¬ Digit (c! '.') := by simp [Digit]

theorem expo_not_digit {c : UInt8} (h : c = c! 'e' ∨ c = c! 'E') : ¬ Digit c := by
  rcases h with rfl | rfl <;> simp [Digit]

theorem exponent_stops {ex : Bytes} (h : Exponent ex) : Spec.Stops Digit ex := by
  cases h with
  | none => intro c hc; simp at hc
  | some c sign ds h1 _ _ => intro d hd; simp at hd; subst hd; exact expo_not_digit h1

theorem append_stops {ex next : Bytes} (h : Exponent ex) (hn : Spec.Stops Digit next) : Spec.Stops Digit (ex ++ next) := by
  cases h with
  | none => exact hn
  | some c sign ds h1 _ _ => intro d hd; simp at hd; subst hd; exact expo_not_digit h1

/-- A literal has no shorter literal as its beginning. -/
theorem real_unique {w w' next : Bytes} (h : RealText w []) (h' : RealText w' next) (e : w' ++ next = w) : w' = w := by
  cases h with
  | mk ds fs ex _ a1 a2 a3 _ _ =>
  cases h' with
  | mk ds' fs' ex' _ b1 b2 b3 b4 b5 =>
    have e1 : ds' ++ (c! '.' :: (fs' ++ (ex' ++ next))) = ds ++ (c! '.' :: (fs ++ ex)) := by simpa using e
    have st : ∀ x : Bytes, Spec.Stops Digit (c! '.' :: x) := by
      intro x c hc; simp at hc; subst hc; exact dot_not_digit
    obtain ⟨rfl, e2⟩ := span_unique b1.2 a1.2 (st _) (st _) e1
    obtain ⟨rfl, e3⟩ := span_unique b2 a2 (append_stops b3 b4) (exponent_stops a3) (List.cons.inj e2).2
    suffices ex' = ex by rw [this]
    cases b3 with
    | none =>
      cases a3 with
      | none => rfl
      | some c sign ds h1 h2 h3 =>
        have := b5 rfl c (by simp at e3; rw [e3]; rfl)
        exact absurd h1 this
    | some c' sign' ds' h1' h2' h3' =>
      cases a3 with
      | none => simp at e3
      | some c sign ds h1 h2 h3 =>
        have e4 : c' = c ∧ sign' ++ (ds' ++ next) = sign ++ ds := by simpa using e3
        obtain ⟨rfl, e5⟩ := e4
        have noSign : ∀ {ds : Bytes} {x y : Bytes} {c : UInt8}, Digits ds → ¬ Digit c → ds ++ x = c :: y → False := by
          intro ds x y c hd hc he
          cases ds with
          | nil => exact hd.1 rfl
          | cons d ds =>
            simp at he
            exact hc (by rw [← he.1]; exact hd.2 d (by simp))
        have hp : ¬ Digit (c! '+') := by simp [Digit]
        have hm : ¬ Digit (c! '-') := by simp [Digit]
        have key : sign' = sign ∧ ds' ++ next = ds := by
          rcases h2 with rfl | rfl | rfl <;> rcases h2' with rfl | rfl | rfl <;> simp at e5 ⊢
          · exact e5
          · exact (noSign (x := []) h3 hp (by rw [List.append_nil]; exact e5.symm)).elim
          · exact (noSign (x := []) h3 hm (by rw [List.append_nil]; exact e5.symm)).elim
          · exact (noSign h3' hp e5).elim
          · exact e5
          · exact (noSign h3' hm e5).elim
          · exact e5
        obtain ⟨rfl, e6⟩ := key
        have := (span_unique (s' := []) h3'.2 h3.2 b4 (fun c hc => by simp at hc) (by rw [List.append_nil]; exact e6)).1
        rw [this]

theorem real_noBackslash {w next : Bytes} (h : RealText w next) : ∀ c ∈ w, c ≠ c! '\\' := by
  have dig : ∀ {ds : Bytes}, All Digit ds → ∀ c ∈ ds, c ≠ c! '\\' := by
    rintro ds h c hc rfl
    have := h _ hc
    simp [Digit] at this
  cases h with
  | mk ds fs ex _ a1 a2 a3 _ _ =>
    intro c hc
    simp only [List.mem_append, List.mem_cons] at hc
    rcases hc with hc | rfl | hc | hc
    · exact dig a1.2 c hc
    · decide
    · exact dig a2 c hc
    · cases a3 with
      | none => cases hc
      | some e sign ds h1 h2 h3 =>
        simp only [List.mem_append, List.mem_cons] at hc
        rcases hc with rfl | hc | hc
        · rcases h1 with rfl | rfl <;> decide
        · rcases h2 with rfl | rfl | rfl
          · cases hc
          · rw [List.mem_singleton.1 hc]; decide
          · rw [List.mem_singleton.1 hc]; decide
        · exact dig h3.2 c hc

/-- What is read as an expression has been read as a number. -/
theorem script_real_inv {w : Bytes} {x : Expr} (h : RealText w []) (hx : parseScriptExpression env w = .ok x) :
    (env.parseFloat w).isSome = true := by
  obtain ⟨ts, h1, h2⟩ := parseScript_inv hx
  obtain ⟨lx, us, rfl, _⟩ := GExpr_first h1
  obtain ⟨d, w0, rfl, hd⟩ : ∃ d w0, w = d :: w0 ∧ Digit d := by
    cases h with
    | mk ds fs ex _ a1 _ _ _ _ =>
      cases ds with
      | nil => exact absurd rfl a1.1
      | cons d ds => exact ⟨d, _, rfl, a1.2 d (by simp)⟩
  rcases h2 with h2 | ⟨_, q, u, _, h3, _⟩
  · generalize hxw : d :: w0 = y at h2
    cases h2 with
    | cons _ _ g v next hg hw _ =>
      obtain ⟨rfl, e1⟩ := white_head hg hd.not_space hxw.symm
      cases hw with
      | expr _ _ _ hw =>
        rcases exprWord_digit hw hd e1 with ⟨h3, h4, _, _⟩ | ⟨f, h3, h4, _⟩
        · exfalso
          generalize hwd : d :: w0 = u at h e1
          cases h with
          | mk ds fs ex _ a1 _ _ _ _ =>
            have st : ∀ x : Bytes, Spec.Stops Digit (c! '.' :: x) := by
              intro x c hc; simp at hc; subst hc; exact dot_not_digit
            obtain ⟨rfl, e2⟩ := span_unique h3.2 a1.2 (fun c hc h => h4 c hc (.inl h)) (st _) e1
            exact h4 (c! '.') (by rw [e2]; rfl) (.inr rfl)
        · have := real_unique h h3 e1
          rw [← hxw, ← this, h4]
          rfl
  · exact absurd (real_noBackslash h (c! '\\') (by rw [h3]; simp)) (by simp)

theorem val_one : F64.one.val = 1 := by
  have h := (rounds_ofInt 1)
  rw [ofInt_one] at h
  have hm : F64.one.mag = 1023 * 2 ^ 52 := by decide
  have hn : F64.one.neg? = false := by decide
  unfold val magVal
  rw [hn, hm]
  norm_num

theorem rounds_one : Rounds 1 F64.one := by
  have h := (rounds_ofInt 1)
  rw [ofInt_one] at h
  simpa using h

/-! ### A text of absurd length -/

/-- `3` and 9676 zeros. -/
def longFigures : Bytes := c! '3' :: List.replicate 9676 (c! '0')

/-- `3` and 9676 zeros and `.e-100000`. -/
def longReal : Bytes := longFigures ++ c! '.' :: ([] ++ b! "e-100000")

theorem longFigures_decimal : decimal longFigures = 3 * 10 ^ 9676 := by
  have : ∀ n k, (List.replicate n (c! '0' : UInt8)).foldl (fun n d => 10 * n + (d.toNat - 48)) k = k * 10 ^ n := by
    intro n
    induction n with
    | zero => intro k; simp
    | succ n ih =>
      intro k
      rw [List.replicate_succ, List.foldl_cons, ih, show (c! '0' : UInt8).toNat - 48 = 0 from rfl, pow_succ]
      ring
  unfold decimal longFigures
  rw [List.foldl_cons]
  exact this 9676 3

theorem longFigures_digits : Digits longFigures := by
  refine ⟨List.cons_ne_nil _ _, ?_⟩
  intro c hc
  rcases List.mem_cons.1 hc with rfl | hc
  · simp [Digit]
  · rw [List.eq_of_mem_replicate hc]; simp [Digit]

theorem long_exp : Exp (b! "e-100000") (-100000) :=
  .neg (c! 'e') (b! "100000") (.inl rfl) ⟨by simp, by simp [All, Digit]⟩

/-- The number it denotes. -/
def longNumber : ℚ := (3 * 10 ^ 9676 : Nat) * 10 ^ (-100000 : ℤ)

theorem long_lit : RealLit longReal longNumber (-100000) := by
  have := RealLit.mk longFigures [] (b! "e-100000") (-100000) longFigures_digits (by simp [All]) long_exp
  rw [List.append_nil, longFigures_decimal] at this
  simp only [List.length_nil, pow_zero, div_one] at this
  exact this

theorem long_figures : figures longReal = 9677 := by
  unfold longReal
  rw [figures_digits longFigures_digits.2, figures_point, List.nil_append, figures_exp long_exp]
  unfold longFigures
  rw [List.length_cons, List.length_replicate]

/-- It is far below the least float. -/
theorem long_tiny : Rounds longNumber (mk' false 0) := by
  have h := rounds_tiny false (q := longNumber) (by unfold longNumber; positivity) (by
    refine lt_trans ?_ tiny_lt'
    unfold longNumber
    rw [Nat.cast_mul, Nat.cast_pow]
    have e : (((3 : Nat) : ℚ) * ((10 : Nat) : ℚ) ^ 9676) * 10 ^ (-100000 : ℤ) = 3 * 10 ^ (-90324 : ℤ) := by
      push_cast
      rw [mul_assoc, ← zpow_natCast, ← zpow_add₀ (by norm_num)]
      norm_num
    rw [e]
    have h1 : (3 : ℚ) * 10 ^ (-90324 : ℤ) < 10 * 10 ^ (-90324 : ℤ) := mul_lt_mul_of_pos_right (by norm_num) (by positivity)
    refine lt_of_lt_of_le h1 ?_
    rw [← zpow_natCast (10 : ℚ) 324, ← zpow_neg, ← zpow_one_add₀ (by norm_num)]
    exact zpow_le_zpow_right₀ (by norm_num) (by norm_num))
  exact h

/-- But it is read as a number above zero. -/
theorem long_read : ∃ f, env.parseFloat longReal = some f ∧ f.mag ≠ 0 := by
  have h1 : decimal? longReal = some (3 * 10 ^ 9676, (-10000 : ℤ) - ((0 : Nat) : ℤ)) := by
    obtain ⟨s1, s2⟩ := span_digits (a := longFigures) (b := c! '.' :: ([] ++ b! "e-100000"))
      longFigures_digits.2 (by intro d hd; cases hd; exact dot_not_digit)
    obtain ⟨s3, s4⟩ := span_digits (a := []) (b := b! "e-100000") (by simp [All]) (exponent_spec long_exp).1
    unfold decimal? longReal
    rw [s1, s2]
    have h2 : exponent? (b! "e-100000") = some (-10000) := by decide
    have h3 : longFigures.isEmpty = false := rfl
    simp only [s3, s4, h2, h3, digitsNat_eq, List.append_nil, longFigures_decimal, List.length_nil, Bool.false_and,
      Bool.false_eq_true, if_false]
  unfold Env.parseFloat
  rw [signed_body long_lit.unsigned]
  simp only [h1]
  have hr := ofDecimal_reads false (3 * 10 ^ 9676) ((-10000 : ℤ) - ((0 : Nat) : ℤ))
  have hv : ((3 * 10 ^ 9676 : Nat) : ℚ) * 10 ^ (-10000 - ((0 : Nat) : ℤ)) = 3 * (10 ^ 324)⁻¹ := by
    rw [Nat.cast_mul, Nat.cast_pow, Nat.cast_zero, sub_zero]
    push_cast
    rw [mul_assoc, ← zpow_natCast, ← zpow_natCast, ← zpow_neg, ← zpow_add₀ (by norm_num)]
    norm_num
  rw [hv] at hr
  have hs : (3 : ℚ) * (10 ^ 324)⁻¹ ≤ 1 := by
    rw [← div_eq_mul_inv, div_le_one (by positivity)]
    exact_mod_cast (by decide +kernel : (3 : Nat) ≤ 10 ^ 324)
  obtain ⟨f, f1, f2, f3, -⟩ := hr.2 (lt_of_le_of_lt hs (by decide +kernel))
  refine ⟨f, f1, fun h0 => ?_⟩
  have hf : f.val = 0 := by unfold val; rw [h0, magVal_zero]; simp
  have h2 := f3.nearest f2 (mk' false 1) (by unfold F64.Finite; rw [finite_mk' (by decide)]; decide)
  have hm : (mk' false 1).val = 2 * 2 ^ (-1075 : ℤ) := by
    have hmin : magVal 1 = 2 * 2 ^ (-1075 : ℤ) := by
      unfold magVal
      rw [if_pos (by norm_num), Nat.cast_one, one_mul, show (-1074 : ℤ) = -1075 + 1 by norm_num, zpow_add_one₀ (by norm_num)]
      ring
    rw [val_mk' (by decide), hmin]
    rfl
  have hlo : (2 : ℚ) ^ (-1075 : ℤ) < 3 * (10 ^ 324)⁻¹ := by
    rw [zpow_neg, show (2 : ℚ) ^ (1075 : ℤ) = 2 ^ 1075 from zpow_natCast 2 1075, ← div_eq_mul_inv, inv_lt_comm₀ (by positivity) (by positivity),
      inv_div, div_lt_iff₀ (by norm_num)]
    exact_mod_cast (by decide +kernel : (10 : Nat) ^ 324 < 2 ^ 1075 * 3)
  have hhi : (3 : ℚ) * (10 ^ 324)⁻¹ < 2 * 2 ^ (-1075 : ℤ) := by
    rw [zpow_neg, show (2 : ℚ) ^ (1075 : ℤ) = 2 ^ 1075 from zpow_natCast 2 1075, ← div_eq_mul_inv, ← div_eq_mul_inv,
      div_lt_div_iff₀ (by positivity) (by positivity)]
    exact_mod_cast (by decide +kernel : (3 : Nat) * 2 ^ 1075 < 2 * 10 ^ 324)
  have hsg : sgn false (3 * (10 ^ 324)⁻¹ : ℚ) = 3 * (10 ^ 324)⁻¹ := rfl
  rw [hf, hm, hsg] at h2
  generalize (3 : ℚ) * (10 ^ 324)⁻¹ = a at *
  generalize (2 : ℚ) ^ (-1075 : ℤ) = b at *
  rw [zero_sub, abs_neg, abs_of_pos (by linarith [show (0 : ℚ) < b by linarith]), abs_of_pos (by linarith)] at h2
  linarith

end JP
