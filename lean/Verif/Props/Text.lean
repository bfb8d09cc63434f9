import Verif.Proof.JsText
import Verif.Proof.JsEq
import Verif.Proof.KRfl
import Verif.Proof.Ops
import Verif.Spec.JsText
import Verif.Props.Ex
/-!
Arrays against strings: C54.
-/
namespace JP
open Spec F64

variable (env : Env)

private theorem eq_yields {a b r : V} : Yields2 env .eq a b r ↔ r = .bool (eqVal env a b) := yields2_ok rfl

private theorem array_string (xs : List V) (s : Bytes) : eqVal env (.arr xs) (.str s) = eqArrayS xs s := by
  rw [eqVal_mixed (by simp [typeOf])]
  simp [eqMixed, typeOf, cvs]

private theorem string_array (xs : List V) (s : Bytes) : eqVal env (.str s) (.arr xs) = eqArrayS xs s := by
  rw [eqVal_mixed (by simp [typeOf])]
  simp [eqMixed, typeOf, cvs]

/-- `==` between an array and a string, in either order, is true exactly for the text `t`. -/
def EqualsOnly (env : Env) (xs : List V) (t : Bytes) : Prop := ∀ s,
  Yields2 env .eq (.arr xs) (.str s) (.bool (decide (s = t))) ∧ Yields2 env .eq (.str s) (.arr xs) (.bool (decide (s = t)))

private theorem equalsOnly_iff {xs : List V} {t : Bytes} : EqualsOnly env xs t ↔ ∀ s, eqArrayS xs s = decide (s = t) := by
  unfold EqualsOnly
  simp only [eq_yields, array_string, string_array, V.bool.injEq, and_self, eq_comm]

private theorem equals_one {v : V} {t : Bytes} (h : cvs v = t) : EqualsOnly env [v] t := by
  rw [equalsOnly_iff]
  intro s
  rw [eqArrayS, h, Bool.eq_iff_iff, beq_iff_eq, decide_eq_true_eq, eq_comm]

/-- Full statement: an array equals exactly the string that JavaScript's toString gives for it. -/
def ArrayTextRule : Prop := ∀ (xs : List V) (t : Bytes), JsText (.arr xs) t → EqualsOnly env xs t

/-- It is false: `["a","b"] == "a,b"` is false. -/
theorem C54_array_text_fails : ¬ ArrayTextRule env := by
  intro h
  have := h [.str (b! "a"), .str (b! "b")] (b! "a,b")
    (.arr _ [b! "a", b! "b"] (.cons _ _ _ _ (by simp) (.str _) (.cons _ _ _ _ (by simp) (.str _) .nil)))
  rw [equalsOnly_iff] at this
  have := this (b! "a,b")
  simp [eqArrayS] at this

/-- An array of more than one element never equals a string. -/
theorem C54_many (x y : V) (zs : List V) (s : Bytes) : Yields2 env .eq (.arr (x :: y :: zs)) (.str s) (.bool false) ∧
    Yields2 env .eq (.str s) (.arr (x :: y :: zs)) (.bool false) := by
  simp [eq_yields, array_string, string_array, eqArrayS]

/-- `[null]` equals `"null"`, not `""`. -/
theorem C54_null : EqualsOnly env [.null] (b! "null") := equals_one env rfl

/-- An array in an array counts as an object: `[["a"]] == "[object Object]"`. -/
theorem C54_nested (xs : List V) : EqualsOnly env [.arr xs] (b! "[object Object]") := equals_one env rfl

/-- `[-0.0]` equals `"-0"`, not `"0"`. -/
theorem C54_negative_zero : EqualsOnly env [.float (.fneg .zero)] (b! "-0") := equals_one env (by decide +kernel)

/-- The numbers whose texts are the same as in JavaScript: 0, NaN, those from `10^-4` up to a million, those
of at least `10^21`, and those less than `10^-9`. -/
def SameText (x : F64) : Prop :=
  x = .zero ∨ x.isNaN = true ∨ (x.Finite ∧ x.mag ≠ 0 ∧
    ((10 ^ (-4 : ℤ) ≤ |x.val| ∧ |x.val| < 10 ^ (6 : ℤ)) ∨ 10 ^ (21 : ℤ) ≤ |x.val| ∨ |x.val| < 10 ^ (-9 : ℤ)))

/-- The elements that, alone in an array, have the same text as in JavaScript. -/
inductive PlainElem : V → Prop
  | str (s) : PlainElem (.str s)
  | bool (b) : PlainElem (.bool b)
  | gint (n) : PlainElem (.gint n)
  | int (n) : PlainElem (.int n)
  | float (x) : SameText x → PlainElem (.float x)
  | obj (kvs) : PlainElem (.obj kvs)

private theorem plain_text {v : V} (hv : PlainElem v) {t : Bytes} (ht : JsText v t) : cvs v = t := by
  cases hv with
  | str s => cases ht; rfl
  | bool b => cases ht <;> rfl
  | gint n => cases ht with | gint _ _ h => exact (integerText_intToBytes _).unique h
  | int n => cases ht with | int _ _ h => exact (integerText_intToBytes _).unique h
  | obj kvs => cases ht; rfl
  | float x hx =>
    cases ht with
    | float _ _ h =>
      refine NumberText.unique (x := x) ?_ h
      show NumberText x (fmtFloat x)
      rcases hx with rfl | hx | ⟨hf, h0, hr⟩
      · have : fmtFloat .zero = [c! '0'] := by decide +kernel
        rw [this]
        exact .zero _ (by decide)
      · have : fmtFloat x = b! "NaN" := by simp [fmtFloat, hx]
        rw [this]
        exact .nan _ hx
      · rw [abs_val] at hr
        exact fmtFloat_text hf h0 hr

/-- The rule holds for the empty array and for arrays of one element that is not null, an array or one of
the numbers that the code writes in another way. -/
theorem C54_array_text_partial (xs : List V) (t : Bytes) (hx : xs = [] ∨ ∃ v, xs = [v] ∧ PlainElem v) (ht : JsText (.arr xs) t) :
    EqualsOnly env xs t := by
  rcases hx with rfl | ⟨v, rfl, hv⟩
  · cases ht with
    | arr _ ts h =>
      cases h
      rw [equalsOnly_iff]
      intro s
      rw [eqArrayS, joined, Bool.eq_iff_iff, beq_iff_eq, decide_eq_true_eq]
  · cases ht with
    | arr _ ts h =>
      cases h with
      | null _ _ h => cases hv
      | cons _ _ t ts hne h1 h2 =>
        cases h2
        exact equals_one env (plain_text hv h1)

example := C54_array_text_partial Ex.env [.str (b! "a")] (b! "a") (.inr ⟨_, rfl, .str _⟩) (.arr _ [_] (.cons _ _ _ _ (by simp) (.str _) .nil))

/-- 1.5, as a float. -/
private def oneAndHalf : F64 := ⟨0x3FF8000000000000⟩

example : PlainElem (.float oneAndHalf) ∧ JsText (.arr [.float oneAndHalf]) (b! "1.5") := by
  have hv : magVal oneAndHalf.mag = 3 / 2 := by
    rw [val_man, show oneAndHalf.man = 3 * 2 ^ 51 by decide, show oneAndHalf.expo = -52 by decide]
    norm_num
  have hf : oneAndHalf.Finite := by unfold F64.Finite; decide
  have hr : (10 : ℚ) ^ (-4 : ℤ) ≤ |oneAndHalf.val| ∧ |oneAndHalf.val| < 10 ^ (6 : ℤ) := by
    rw [abs_val, hv]; norm_num
  refine ⟨.float _ (Or.inr (Or.inr ⟨hf, by decide, Or.inl hr⟩)), ?_⟩
  have := fmtFloat_text hf (by decide) (Or.inl (by rwa [abs_val] at hr))
  rw [show fmtFloat oneAndHalf = b! "1.5" by decide +kernel] at this
  exact .arr _ [_] (.cons _ _ _ _ (by simp) (.float _ _ this) .nil)

/-- Of the floats, exactly those have the same text. -/
theorem C54_float (x : F64) (t : Bytes) (ht : NumberText x t) : EqualsOnly env [.float x] t ↔ SameText x := by
  constructor
  · intro h
    have hx : fmtFloat x = t := by
      have := (h t).1
      rw [eq_yields, array_string] at this
      simpa [eqArrayS, cvs] using this
    by_contra hc
    unfold SameText at hc
    push Not at hc
    obtain ⟨c1, c2, c3⟩ := hc
    by_cases hf : x.Finite
    · by_cases h0 : x.mag = 0
      · have hz : x = .fneg .zero := by
          cases hn : x.neg?
          · exact absurd (ext_mag hn h0) c1
          · exact ext_mag hn h0
        subst hz
        have := ht.unique (.zero _ h0)
        rw [this, show fmtFloat (.fneg .zero) = b! "-0" by decide +kernel] at hx
        revert hx
        decide
      · obtain ⟨d1, d2, d3⟩ := c3 hf h0
        rw [abs_val] at d1 d2 d3
        rcases lt_or_ge (magVal x.mag) (10 ^ (-4 : ℤ)) with h | h
        · exact fmtFloat_small hf d3 h ht hx
        · obtain ⟨a, b⟩ := fmtFloat_large hf (d1 h) d2 ht
          exact b (hx ▸ a)
    · have hi : x.isInf = true := by
        have : infMag = 0x7FF * 2 ^ 52 := rfl
        simp only [isNaN, isInf, F64.Finite, decide_eq_true_eq, beq_iff_eq, ne_eq] at hf c2 ⊢
        omega
      cases hn : x.neg?
      · have := ht.unique (.infinite _ hi hn)
        subst this
        simp [fmtFloat, c2, hi, hn] at hx
      · have := ht.unique (.negInfinite _ hi hn)
        subst this
        simp [fmtFloat, c2, hi, hn] at hx
  · intro h
    exact equals_one env (plain_text (.float x h) (.float x t ht))

example := C54_float Ex.env (.inf true) (b! "-Infinity") (.negInfinite _ (by decide +kernel) (by decide +kernel))

/-- A million, as a float. -/
private def million : F64 := ⟨0x412E848000000000⟩

/-- From a million up to `10^21` it fails for every number: the code uses an exponent, JavaScript does not. -/
theorem C54_large_fails (x : F64) (hf : x.Finite) (h1 : 10 ^ (6 : ℤ) ≤ |x.val|) (h2 : |x.val| < 10 ^ (21 : ℤ)) (t : Bytes)
    (ht : NumberText x t) : Yields2 env .eq (.arr [.float x]) (.str t) (.bool false) := by
  rw [eq_yields, array_string]
  rw [abs_val] at h1 h2
  obtain ⟨a, b⟩ := fmtFloat_large hf h1 h2 ht
  have : fmtFloat x ≠ t := fun h => b (h ▸ a)
  simp [eqArrayS, cvs, this]

example : (10 : ℚ) ^ (6 : ℤ) ≤ |million.val| ∧ |million.val| < 10 ^ (21 : ℤ) := by
  have hv : magVal million.mag = 1000000 := by
    rw [val_man, show million.man = 15625 * 2 ^ 39 by decide, show million.expo = -33 by decide]
    norm_num
  rw [abs_val, hv]
  norm_num

/-- For example `[1000000.0] == "1e+06"`. -/
theorem C54_million : EqualsOnly env [.float million] (b! "1e+06") ∧ NumberText million (b! "1000000") := by
  have hf : million.Finite := by unfold F64.Finite; decide
  have hs : Shortest million 1 6 := by
    have := shortest_spec hf (by decide)
    rwa [show shortest million = (1, 6) by decide +kernel] at this
  constructor
  · exact equals_one env (by decide +kernel)
  · refine .positive _ 1 6 (b! "1") _ hf (by decide) (by decide) hs ⟨⟨by decide, ?_⟩, by decide, by decide⟩ ?_
    · intro c hc
      simp at hc
      subst hc
      exact ⟨by decide, by decide⟩
    · exact .whole (b! "000000") (by decide) (by decide) ⟨by decide, by decide⟩

/-- If an array of one finite number equals a string, so does the number: the text of a number reads back as
that number. -/
theorem C54_element (x : F64) (hf : x.Finite) (s : Bytes) (h : Yields2 env .eq (.arr [.float x]) (.str s) (.bool true)) :
    Yields2 env .eq (.float x) (.str s) (.bool true) ∧ Yields2 env .eq (.str s) (.float x) (.bool true) := by
  rw [eq_yields, array_string] at h
  have hs : fmtFloat x = s := by simpa [eqArrayS, cvs] using h
  have hp := parseFloat_fmtFloat env hf
  have hne := fmtFloat_ne hf
  rw [hs] at hp hne
  have hc : cvf env (.str s) = x := by simp [cvf, hne, hp]
  have hb : badNum env s true = false := by simp [badNum, hp]
  rw [eq_yields, eq_yields, eqVal_mixed (by simp [typeOf]), eqVal_mixed (by simp [typeOf])]
  have hx : x.feq x = true := feq_self.2 (not_special hf).1
  have hx' : cvf env (.float x) = x := rfl
  simp [eqMixed, typeOf, cvs, isFloat, hb, eqNum_eq, hc, hx', hx]

example : oneAndHalf.Finite ∧ Yields2 Ex.env .eq (.arr [.float oneAndHalf]) (.str (b! "1.5")) (.bool true) := by
  refine ⟨by unfold F64.Finite; decide, ?_⟩
  have := (equals_one Ex.env (v := .float oneAndHalf) (t := b! "1.5") (by decide +kernel)) (b! "1.5")
  simpa using this.1

end JP
