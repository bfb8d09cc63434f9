import Verif.Proof.RealLit
import Verif.Props.Functions
/-!
Literals with a fraction: C49, and `to_number` of the text of a number: C44.

`RealLit w q e` says that the text `w` denotes the number `q` (and has the exponent `e`); `Rounds q f` that `f` is
the float nearest to `q`.
-/
namespace JP
open Spec F64

variable (env : Env)

/-- The full statement: a literal is the float nearest to the number it denotes, or rejected if that is infinite. -/
def RealRule : Prop :=
  ∀ (w : Bytes) (q : ℚ) (e : ℤ), RealLit w q e →
    (q < limit → ∃ f : F64, f.Finite ∧ Rounds q f ∧ parseScriptExpression env w = .ok (.float f)) ∧
    (limit ≤ q → ∀ x, parseScriptExpression env w ≠ .ok x)

/-- It is false, for texts of absurd length: `3` and 9676 zeros and `.e-100000`, which is as good as zero, is not taken for zero. -/
theorem C49_real_fails : ¬ RealRule env := by
  intro h
  obtain ⟨f, hf, hm⟩ := long_read (env := env)
  obtain ⟨g, -, g2, g3⟩ := (h _ _ _ long_lit).1 (by
    have := long_tiny.overflow
    rw [abs_of_nonneg (by unfold longNumber; positivity)] at this
    refine not_le.1 fun hl => ?_
    have := this.2 hl
    simp only [isInf, finite_mk' (s := false) (show (0 : Nat) < infMag by decide)] at this
    exact absurd this (by decide))
  rw [script_real (real_text long_lit) hf] at g3
  cases g3
  have := g2.unique long_tiny (by unfold longNumber; positivity)
  rw [this] at hm
  exact hm (finite_mk' (by decide))

/-- That text has one digit more than the next theorem allows. -/
theorem C49_edge : RealLit longReal longNumber (-100000) ∧ figures longReal = 9676 + 1 := ⟨long_lit, long_figures⟩

/-- It holds unless the text has more than 9676 digits and then an exponent of 100000 or more (or -100000 or less). -/
theorem C49_real_partial (w : Bytes) (q : ℚ) (e : ℤ) (h : RealLit w q e) (hs : Sane w e) :
    (q < limit → ∃ f : F64, f.Finite ∧ Rounds q f ∧ parseScriptExpression env w = .ok (.float f)) ∧
    (limit ≤ q → ∀ x, parseScriptExpression env w ≠ .ok x) := by
  have hq : |q| = q := by
    refine abs_of_nonneg ?_
    cases h with
    | mk ds fs ex e _ _ _ => positivity
  have hr := parseFloat_decimal (env := env) (.unsigned _ _ _ h.unsigned) hs
  rw [hq] at hr
  constructor
  · intro hl
    obtain ⟨f, h1, h2, h3, -⟩ := hr.2 hl
    exact ⟨f, h2, h3, script_real (real_text h) h1⟩
  · intro hl x hx
    have := script_real_inv (real_text h) hx
    rw [hr.1 hl] at this
    simp at this

example := C49_real_partial Ex.env _ _ _
  (RealLit.mk (b! "6") (b! "02") (b! "e23") 23 ⟨by simp, by simp [All, Digit]⟩ (by simp [All, Digit])
    (.pos (c! 'e') [] (b! "23") (.inl rfl) (.inl rfl) ⟨by simp, by simp [All, Digit]⟩)) (.inl (by decide))

/-- The same in a filter: `$[?(@.price < 12.50)]` compares with the float nearest to the number. -/
theorem C49_filter_partial (w : Bytes) (q : ℚ) (e : ℤ) (h : RealLit w q e) (hs : Sane w e) (hl : q < limit) :
    ∃ f : F64, f.Finite ∧ Rounds q f ∧
      parsePath env (b! "$[?(" ++ (w ++ b! ")]")) = .ok [⟨.filter, [.expr (.float f)]⟩] := by
  obtain ⟨f, h1, h2, h3⟩ := (C49_real_partial env w q e h hs).1 hl
  refine ⟨f, h1, h2, ?_⟩
  have := script_real_inv (real_text h) h3
  obtain ⟨g, hg⟩ := Option.isSome_iff_exists.1 this
  have := script_real (real_text h) hg
  rw [h3] at this
  cases this
  exact parsePath_filter (written_one (.real _ _ _ (real_text h) hg)) (gatom_expr (.real _))

example := C49_filter_partial Ex.env _ _ _
  (RealLit.mk (b! "12") (b! "50") [] 0 ⟨by simp, by simp [All, Digit]⟩ (by simp [All, Digit]) .none) (.inl (by decide))
  (lt_of_lt_of_le (by rw [show decimal (b! "12" ++ b! "50") = 1250 from rfl]; norm_num) (show (100 : ℚ) ≤ limit by decide +kernel))

/-- A number that is that of a float is read exactly. -/
theorem C49_exact (w : Bytes) (e : ℤ) (z : F64) (hz : z.Finite) (h : RealLit w z.val e) (hs : Sane w e) :
    ∃ f : F64, f.val = z.val ∧ parseScriptExpression env w = .ok (.float f) := by
  obtain ⟨f, -, h2, h3⟩ := (C49_real_partial env w _ e h hs).1 (lt_of_le_of_lt (le_abs_self _) (val_lt_limit hz))
  exact ⟨f, (h2.exact hz rfl).2, h3⟩

example : RealLit (b! "12.50") (25 / 2) 0 ∧ Sane (b! "12.50") 0 := by
  refine ⟨?_, .inl (by decide)⟩
  have := RealLit.mk (b! "12") (b! "50") [] 0 ⟨by simp, by simp [All, Digit]⟩ (by simp [All, Digit]) .none
  rw [show decimal (b! "12" ++ b! "50") = 1250 from rfl] at this
  norm_num at this ⊢
  exact this
example : RealLit (b! "6.02e23") 602000000000000000000000 23 := by
  have := RealLit.mk (b! "6") (b! "02") (b! "e23") 23 ⟨by simp, by simp [All, Digit]⟩ (by simp [All, Digit])
    (.pos (c! 'e') [] (b! "23") (.inl rfl) (.inl rfl) ⟨by simp, by simp [All, Digit]⟩)
  rw [show decimal (b! "6" ++ b! "02") = 602 from rfl] at this
  norm_num at this ⊢
  exact this
example : (limit : ℚ) ≤ 10 ^ 1000 := by
  have := limit_le (le_refl ((10 : ℚ) ^ 1000))
  exact this

/-- `to_number` of the text of a decimal number is the float nearest to it, with its sign, or an error if that is
infinite. -/
theorem C44_to_number_decimal (s : Bytes) (neg : Bool) (q : ℚ) (e : ℤ) (h : DecimalText s neg q e) (hs : Sane s e) :
    (|q| < limit → ∃ f : F64, f.Finite ∧ Rounds q f ∧ f.neg? = neg ∧ YieldsCall env (b! "to_number") [.str s] (.float f)) ∧
    (limit ≤ |q| → YieldsCall env (b! "to_number") [.str s] (.err (.parseNum s))) := by
  have hr := parseFloat_decimal (env := env) h hs
  have hc := C44_to_number_string env s
  constructor
  · intro hl
    obtain ⟨f, h1, h2, h3, h4⟩ := hr.2 hl
    rw [h1] at hc
    exact ⟨f, h2, h3, h4, hc⟩
  · intro hl
    rw [hr.1 hl] at hc
    exact hc

example : DecimalText (b! "-.5") true (-(5 / 10)) 0 := by
  refine .minus _ _ _ ?_
  have := Unsigned.point [] (b! "5") [] 0 (by simp [All]) (by simp [All, Digit]) (by simp) .none
  rw [show decimal ([] ++ b! "5") = 5 from rfl] at this
  norm_num at this ⊢
  exact this

end JP
