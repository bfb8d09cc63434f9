import Verif.Spec.IntFloat
import Verif.Proof.Presence
import Verif.Proof.Keys
import Verif.Proof.Total
import Verif.Proof.Format
import Verif.Proof.Eq
/-!
Comparisons do not tell integers from floats of the same value.
-/
namespace JP
open Spec F64

/-- The same float, or the same number. -/
def SameNumber (x y : F64) : Prop := x = y ∨ (x.isNaN = false ∧ y.isNaN = false ∧ x.key = y.key)

theorem one_ofInt : F64.one = ofInt 1 := by decide +kernel
theorem zero_ofInt : F64.zero = ofInt 0 := by decide +kernel

theorem whole_abs {n : Int} (h : |n| < 2 ^ 53) : n.natAbs ≤ 2 ^ 63 ∧ -2 ^ 53 < n ∧ n < 2 ^ 53 := by
  obtain ⟨h1, h2⟩ := abs_lt.1 h
  omega

theorem whole_cvf (env : Env) {n : Int} (hn : |n| < 2 ^ 53) {a : V} (h : IsWhole n a) : (cvf env a).Finite ∧ (cvf env a).val = n := by
  obtain ⟨h0, h1, h2⟩ := whole_abs hn
  have hi : (ofInt n).Finite ∧ (ofInt n).val = n := ⟨ofInt_finite n h0, ofInt_exact (by omega) (by omega)⟩
  cases h with
  | int k hk => subst hk; exact hi
  | gint k hk => subst hk; exact hi
  | float x hf hv => exact ⟨hf, hv⟩

theorem whole_cvi (env : Env) {n : Int} (hn : |n| < 2 ^ 53) {a : V} (h : IsWhole n a) : (cvi env a).toInt = n := by
  cases h with
  | int k hk => exact hk
  | gint k hk => exact hk
  | float x hf hv => exact f2i_whole env hf hv (le_of_lt hn)

theorem whole_same (env : Env) {n : Int} (hn : |n| < 2 ^ 53) {a b : V} (ha : IsWhole n a) (hb : IsWhole n b) :
    SameNumber (cvf env a) (cvf env b) := by
  obtain ⟨f1, v1⟩ := whole_cvf env hn ha
  obtain ⟨f2, v2⟩ := whole_cvf env hn hb
  exact .inr ⟨(not_special f1).1, (not_special f2).1, (key_eq_iff _ _).2 (v1.trans v2.symm)⟩

/-- An integer of at most 53 bits and any other compare as their floats do. -/
theorem ofInt_lt {m n : Int} (hm : |m| < 2 ^ 53) (hn : n.natAbs ≤ 2 ^ 63) : ((ofInt m).key < (ofInt n).key ↔ m < n) ∧ ((ofInt n).key < (ofInt m).key ↔ n < m) := by
  obtain ⟨h0, h1, h2⟩ := whole_abs hm
  have em := ofInt_exact (n := m) (by omega) (by omega)
  by_cases hs : -2 ^ 53 ≤ n ∧ n ≤ 2 ^ 53
  · have en := ofInt_exact hs.1 hs.2
    rw [key_lt_iff, key_lt_iff, em, en]
    exact ⟨by exact_mod_cast Iff.rfl, by exact_mod_cast Iff.rfl⟩
  · by_cases hb : 2 ^ 53 < n
    · have h3 := ofInt_mono (m := 2 ^ 53) (n := n) (by decide) hn (by omega)
      have h4 := ofInt_exact (n := 2 ^ 53) (by decide) (by decide)
      rw [key_le_iff, h4] at h3
      rw [key_lt_iff, key_lt_iff, em]
      have : (m : ℚ) < ((2 ^ 53 : ℤ) : ℚ) := by exact_mod_cast h2
      constructor
      · exact ⟨fun _ => by omega, fun _ => lt_of_lt_of_le this h3⟩
      · exact ⟨fun h => absurd (lt_trans h this) (not_lt.2 h3), fun h => by omega⟩
    · have h3 := ofInt_mono (m := n) (n := -2 ^ 53) hn (by decide) (by omega)
      have h4 := ofInt_exact (n := -2 ^ 53) (by decide) (by decide)
      rw [key_le_iff, h4] at h3
      rw [key_lt_iff, key_lt_iff, em]
      have : ((-2 ^ 53 : ℤ) : ℚ) < (m : ℚ) := by exact_mod_cast h1
      constructor
      · exact ⟨fun h => absurd (lt_of_lt_of_le h h3) (not_lt.2 (le_of_lt this)), fun h => by omega⟩
      · exact ⟨fun _ => by omega, fun _ => lt_of_le_of_lt h3 this⟩

/-- A comparison of integers and one of floats that are the same comparison. -/
structure Twins (f : Int64 → Int64 → Bool) (g : F64 → F64 → Bool) : Prop where
  same : ∀ x x' y y', SameNumber x x' → SameNumber y y' → g x y = g x' y'
  ints : ∀ m n : Int64, |m.toInt| < 2 ^ 53 ∨ |n.toInt| < 2 ^ 53 → f m n = g (ofInt m.toInt) (ofInt n.toInt)

theorem int64_abs (n : Int64) : n.toInt.natAbs ≤ 2 ^ 63 := by
  have := n.le_toInt
  have := n.toInt_lt
  omega

theorem ofInt_notNaN (n : Int64) : (ofInt n.toInt).isNaN = false := (not_special (ofInt_finite _ (int64_abs n))).1

theorem keys_lt {m n : Int64} (h : |m.toInt| < 2 ^ 53 ∨ |n.toInt| < 2 ^ 53) : ((ofInt m.toInt).key < (ofInt n.toInt).key ↔ m < n) := by
  rw [Int64.lt_iff_toInt_lt]
  rcases h with h | h
  · exact (ofInt_lt h (int64_abs n)).1
  · exact (ofInt_lt h (int64_abs m)).2

theorem keys_le {m n : Int64} (h : |m.toInt| < 2 ^ 53 ∨ |n.toInt| < 2 ^ 53) : ((ofInt m.toInt).key ≤ (ofInt n.toInt).key ↔ m ≤ n) := by
  rw [← not_lt, keys_lt h.symm, Int64.lt_iff_toInt_lt, Int64.le_iff_toInt_le, not_lt]

theorem twins_lt : Twins (· < ·) F64.flt where
  same := by
    rintro x x' y y' (rfl | ⟨h1, h2, h3⟩) (rfl | ⟨h4, h5, h6⟩) <;> simp [flt, *]
  ints m n h := by
    simp only [flt, ofInt_notNaN, keys_lt h]; simp

theorem twins_le : Twins (· ≤ ·) F64.fle where
  same := by
    rintro x x' y y' (rfl | ⟨h1, h2, h3⟩) (rfl | ⟨h4, h5, h6⟩) <;> simp [fle, *]
  ints m n h := by
    simp only [fle, ofInt_notNaN, keys_le h]; simp

theorem twins_ge : Twins (· ≥ ·) (fun x y => F64.fle y x) where
  same x x' y y' hx hy := twins_le.same _ _ _ _ hy hx
  ints m n h := twins_le.ints n m h.symm

theorem twins_gt : Twins (· > ·) (fun x y => F64.flt y x) where
  same x x' y y' hx hy := twins_lt.same _ _ _ _ hy hx
  ints m n h := twins_lt.ints n m h.symm

theorem twins_eq : Twins (· == ·) F64.feq where
  same := by
    rintro x x' y y' (rfl | ⟨h1, h2, h3⟩) (rfl | ⟨h4, h5, h6⟩) <;> simp [feq, *]
  ints m n h := by
    have h1 := keys_le h
    have h2 := keys_le h.symm
    rw [Bool.eq_iff_iff, feq_iff, beq_iff_eq, le_antisymm_iff (a := (ofInt m.toInt).key), h1, h2, Int64.le_iff_toInt_le, Int64.le_iff_toInt_le,
      ← Int64.toInt_inj, le_antisymm_iff]
    simp [ofInt_notNaN]

/-- The value that a comparison of numbers sees. -/
def Numeric (env : Env) (v : V) : Prop := isFloat v = true ∨ cvf env v = ofInt (cvi env v).toInt

theorem numeric_whole (env : Env) {n : Int} {a : V} (h : IsWhole n a) : Numeric env a := by
  cases h with
  | int => exact .inr rfl
  | gint => exact .inr rfl
  | float => exact .inl rfl

theorem numeric_simple (env : Env) {v : V} (hs : isSimple v = true) (hn : isString v = false) : Numeric env v := by
  cases v with
  | int => exact .inr rfl
  | gint => exact .inr rfl
  | float => exact .inl rfl
  | bool b => cases b <;> right <;> simp only [cvf, cvi, if_true, Bool.false_eq_true, if_false]; exacts [zero_ofInt, one_ofInt]
  | str => cases hn
  | _ => cases hs

/-- Comparison of numbers: mach/run.go:666-672 and mach/json.go:136-147. -/
def compared (env : Env) (f : Int64 → Int64 → Bool) (g : F64 → F64 → Bool) (a b : V) : Bool :=
  if isFloat a || isFloat b then g (cvf env a) (cvf env b) else f (cvi env a) (cvi env b)

theorem compared_whole {env : Env} {f : Int64 → Int64 → Bool} {g : F64 → F64 → Bool} (h : Twins f g) {n : Int} (hn : |n| < 2 ^ 53) {a b : V}
    (hw : IsWhole n a ∨ IsWhole n b) (ha : Numeric env a) (hb : Numeric env b) : compared env f g a b = g (cvf env a) (cvf env b) := by
  unfold compared
  split
  · rfl
  · rename_i hf
    simp only [Bool.or_eq_true, not_or] at hf
    rw [ha.resolve_left hf.1, hb.resolve_left hf.2]
    refine h.ints _ _ ?_
    rcases hw with hw | hw
    · left; rw [whole_cvi env hn hw]; exact hn
    · right; rw [whole_cvi env hn hw]; exact hn

theorem compared_same {env : Env} {f : Int64 → Int64 → Bool} {g : F64 → F64 → Bool} (h : Twins f g) {a a' b b' : V}
    (h1 : SameWhole a a') (h2 : SameWhole b b') (ha : Numeric env a) (hb : Numeric env b) :
    compared env f g a b = compared env f g a' b' := by
  rcases h1 with rfl | ⟨n, hn, w1, w2⟩ <;> rcases h2 with rfl | ⟨m, hm, w3, w4⟩
  · rfl
  · rw [compared_whole h hm (.inr w3) ha hb, compared_whole h hm (.inr w4) ha (numeric_whole env w4)]
    exact h.same _ _ _ _ (.inl rfl) (whole_same env hm w3 w4)
  · rw [compared_whole h hn (.inl w1) ha hb, compared_whole h hn (.inl w2) (numeric_whole env w2) hb]
    exact h.same _ _ _ _ (whole_same env hn w1 w2) (.inl rfl)
  · rw [compared_whole h hn (.inl w1) ha hb, compared_whole h hn (.inl w2) (numeric_whole env w2) (numeric_whole env w4)]
    exact h.same _ _ _ _ (whole_same env hn w1 w2) (whole_same env hm w3 w4)

/-! ### The relation of values -/

theorem keepsTruth_whole (env : Env) : KeepsTruth env SameWhole where
  refl _ _ := .inl rfl
  keeps := by
    rintro a b (rfl | ⟨n, hn, h1, h2⟩)
    · exact .inl rfl
    · right
      have num : ∀ {a : V}, IsWhole n a → NumberOrBool a := by intro a h; cases h <;> trivial
      have tru : ∀ {a : V}, IsWhole n a → truthy env a = decide (n ≠ 0) := by
        intro a h
        obtain ⟨hf, hv⟩ := whole_cvf env hn h
        have hi : ∀ k : Int64, k.toInt = n → (k != 0) = decide (n ≠ 0) := by
          rintro k rfl
          rw [Bool.eq_iff_iff, decide_eq_true_iff, bne_iff_ne, ne_eq, ← Int64.toInt_inj]
          rfl
        cases h with
        | int k hk => exact hi k hk
        | gint k hk => exact hi k hk
        | float x _ _ =>
          have hz : x.feq .zero = decide (n = 0) := by
            have hv' : x.val = n := hv
            rw [Bool.eq_iff_iff, feq_iff, decide_eq_true_iff, key_eq_iff, hv']
            have e : F64.zero.val = 0 := by rw [zero_ofInt, ofInt_exact (by decide) (by decide)]; rfl
            rw [e]
            have hx : x.isNaN = false := (not_special hf).1
            simp only [hx, true_and]
            exact ⟨fun h => by exact_mod_cast h.2, fun h => ⟨by decide, by exact_mod_cast h⟩⟩
          have hz' : x.feq (.fneg .zero) = x.feq .zero := by
            simp only [feq, key_fneg, key_zero]
            rfl
          have hx : x.isNaN = false := (not_special hf).1
          show (!false && (!x.isNaN && !x.feq .zero && !x.feq (.fneg .zero))) = _
          rw [hz', hz, hx]
          by_cases h0 : n = 0 <;> simp [h0]
      exact ⟨num h1, num h2, by rw [tru h1, tru h2]⟩

theorem relation_whole {env : Env} {f : Int64 → Int64 → Bool} {g : F64 → F64 → Bool} (sf : Bytes → Bytes → Bool) (h : Twins f g) {a a' b b' : V}
    (h1 : SameShape SameWhole a a') (h2 : SameShape SameWhole b b') : relation env a b f g sf = relation env a' b' f g sf := by
  have simple : ∀ {a a' : V}, SameShape SameWhole a a' → isSimple a = isSimple a' ∧ isString a = isString a' ∧ (isString a = true → a = a') ∧
      (isSimple a = true → SameWhole a a') := by
    intro a a' h
    cases h with
    | scalar _ _ h =>
      refine ⟨?_, ?_, ?_, fun _ => h⟩ <;> rcases h with rfl | ⟨n, -, h1, h2⟩ <;> first | rfl | exact fun _ => rfl | (cases h1 <;> cases h2 <;> first | rfl | exact fun h => nomatch h)
    | arr => exact ⟨rfl, rfl, (fun h => by cases h), (fun h => by cases h)⟩
    | obj => exact ⟨rfl, rfl, (fun h => by cases h), (fun h => by cases h)⟩
  obtain ⟨s1, s2, s3, s4⟩ := simple h1
  obtain ⟨t1, t2, t3, t4⟩ := simple h2
  unfold relation
  rw [shape_nothing (keepsTruth_whole env) h1, shape_nothing (keepsTruth_whole env) h2, ← s1, ← t1, ← s2, ← t2]
  split
  · rfl
  split
  · rfl
  rename_i hs
  simp only [Bool.not_eq_true', Bool.not_eq_false, Bool.and_eq_true] at hs
  split
  · split
    · rfl
    · rename_i hb
      simp only [Bool.not_eq_true', Bool.not_eq_false, Bool.and_eq_true] at hb
      rw [s3 hb.1, t3 hb.2]
  · rename_i hb
    simp only [Bool.or_eq_true, not_or, Bool.not_eq_true] at hb
    have := compared_same (env := env) h (s4 hs.1) (t4 hs.2) (numeric_simple env hs.1 hb.1) (numeric_simple env hs.2 hb.2)
    unfold compared at this
    split at this <;> split at this <;> simp_all

/-! ### Equality with literals -/

/-- Values of literals. -/
inductive LiteralValue (env : Env) : V → Prop
  | int (n) : LiteralValue env (.int n)
  | float (x) : LiteralValue env (.float x)
  | bool (b) : LiteralValue env (.bool b)
  | null : LiteralValue env .null
  | str (s) : s = [] ∨ env.parseFloat s = none → LiteralValue env (.str s)

theorem eqNum_compared (env : Env) (a b : V) : eqNum env a b = compared env (· == ·) F64.feq a b := eqNum_eq a b

theorem parseInt_none {env : Env} {s : Bytes} (h : env.parseFloat s = none) : parseInt s = none := by
  cases hp : parseInt s with
  | none => rfl
  | some n =>
    obtain ⟨neg, hd⟩ := parseInt_text hp
    have hl : |((n.toInt : ℤ) : ℚ)| < limit := by
      refine not_le.1 fun hc => ?_
      have := (rounds_ofInt n.toInt).overflow.2 hc
      rw [(not_special (ofInt_finite _ (int64_abs n))).2] at this
      cases this
    obtain ⟨f, hf, -⟩ := (parseFloat_decimal (env := env) hd (.inl (by decide))).2 hl
    rw [h] at hf
    cases hf

theorem intToBytes_parses (n : Int64) : parseInt (intToBytes n.toInt) = some n := by
  rw [parseInt_spelled]
  unfold intToBytes
  obtain ⟨h1, h2, -⟩ := numeral_natToBytes n.toInt.natAbs
  split
  · have := Spells.minus _ h1
    rw [h2] at this
    rwa [show -((n.toInt.natAbs : Nat) : Int) = n.toInt by omega] at this
  · have := Spells.plain _ h1
    rw [h2] at this
    rwa [show ((n.toInt.natAbs : Nat) : Int) = n.toInt by omega] at this

/-- The text of a number is not that of a literal. -/
theorem cvs_whole {env : Env} {n : Int} {a : V} (h : IsWhole n a) {s : Bytes} (hs : s = [] ∨ env.parseFloat s = none) : (cvs a == s) = false := by
  rw [beq_eq_false_iff_ne]
  rintro rfl
  have hi : ∀ k : Int64, ¬ (intToBytes k.toInt = [] ∨ env.parseFloat (intToBytes k.toInt) = none) := by
    rintro k (h | h)
    · have := intToBytes_parses k
      rw [h] at this
      cases this
    · have := parseInt_none h
      rw [intToBytes_parses] at this
      cases this
  cases h with
  | int k _ => exact hi k hs
  | gint k _ => exact hi k hs
  | float x hf _ =>
    have hp := parseFloat_fmtFloat env hf
    rcases hs with hs | hs
    · exact fmtFloat_ne hf hs
    · rw [show env.parseFloat (fmtFloat x) = none from hs] at hp
      cases hp

theorem eqNum_shape {env : Env} {k : V} (hk : Numeric env k) {a a' : V} (h : SameShape SameWhole a a') : eqNum env a k = eqNum env a' k := by
  rw [eqNum_compared, eqNum_compared]
  cases h with
  | scalar _ _ h =>
    rcases h with rfl | ⟨n, hn, w1, w2⟩
    · rfl
    · exact compared_same twins_eq (.inr ⟨n, hn, w1, w2⟩) (.inl rfl) (numeric_whole env w1) hk
  | arr => rfl
  | obj => rfl

theorem cvi_shape (env : Env) {a a' : V} (h : SameShape SameWhole a a') : cvi env a = cvi env a' := by
  cases h with
  | scalar _ _ h =>
    rcases h with rfl | ⟨n, hn, w1, w2⟩
    · rfl
    · exact Int64.toInt_inj.1 ((whole_cvi env hn w1).trans (whole_cvi env hn w2).symm)
  | arr => rfl
  | obj => rfl

theorem cvs_shape {env : Env} {s : Bytes} (hs : s = [] ∨ env.parseFloat s = none) {a a' : V} (h : SameShape SameWhole a a') : (cvs a == s) = (cvs a' == s) := by
  cases h with
  | scalar _ _ h =>
    rcases h with rfl | ⟨n, hn, w1, w2⟩
    · rfl
    · rw [cvs_whole w1 hs, cvs_whole w2 hs]
  | arr => rfl
  | obj => rfl

theorem eqVal_literal {env : Env} {k : V} (hk : LiteralValue env k) {a a' : V} (h : SameShape SameWhole a a') : eqVal env a k = eqVal env a' k := by
  cases h with
  | scalar _ _ h =>
    rcases h with rfl | ⟨n, hn, w1, w2⟩
    · rfl
    · have hs : SameShape SameWhole a a' := .scalar (by cases w1 <;> trivial) (by cases w2 <;> trivial) (.inr ⟨n, hn, w1, w2⟩)
      have num : ∀ {a : V}, IsWhole n a → eqVal env a k = match k with
          | .null => false
          | .str s => if s = [] then eqNum env a k else false
          | _ => eqNum env a k := by
        intro a h
        cases hk with
        | int m => cases h <;> simp [eqVal, typeOf]
        | float m => cases h <;> simp [eqVal, typeOf]
        | bool b => cases h <;> simp [eqVal, typeOf, eqMixed]
        | null => cases h <;> simp [eqVal, typeOf, eqMixed]
        | str s hs =>
          have hb : ∀ fp, badNum env s fp = !decide (s = []) := by
            intro fp
            unfold badNum
            rcases hs with hs | hs
            · simp [hs]
            · by_cases h0 : s = []
              · simp [h0]
              · simp [h0, parseInt_none hs, hs]
          by_cases h0 : s = []
          · subst h0
            cases h <;> simp [eqVal, typeOf, eqMixed, cvs, hb]
          · cases h <;> simp [eqVal, typeOf, eqMixed, cvs, hb, h0]
      rw [num w1, num w2]
      cases hk with
      | int m => exact eqNum_shape (.inr rfl) hs
      | float x => exact eqNum_shape (.inl rfl) hs
      | bool b => exact eqNum_shape (numeric_simple env rfl rfl) hs
      | null => rfl
      | str s h =>
        dsimp only
        split
        · rename_i h0
          subst h0
          exact eqNum_shape (k := .str []) (.inr (by show F64.zero = ofInt 0; exact zero_ofInt)) hs
        · rfl
  | @arr xs ys h =>
    have num : ∀ {k : V}, Numeric env k → eqArrayN env xs k = eqArrayN env ys k := by
      intro k hk
      match xs, ys, h with
      | [], _, .nil => rfl
      | [x], _, .cons h .nil => exact eqNum_shape hk h
      | _ :: _ :: _, _, .cons _ (.cons _ _) => rfl
    cases hk with
    | int m => simpa [eqVal, typeOf, eqMixed] using num (k := .int m) (.inr rfl)
    | float x => simpa [eqVal, typeOf, eqMixed] using num (k := .float x) (.inl rfl)
    | bool b =>
      simp only [eqVal, typeOf, eqMixed]
      match xs, ys, h with
      | [], _, .nil => rfl
      | [x], _, .cons h .nil => simp [eqArrayB, cvi_shape env h]
      | _ :: _ :: _, _, .cons _ (.cons _ _) => simp [eqArrayB]
    | null => simp [eqVal, typeOf, eqMixed]
    | str s hs =>
      simp only [eqVal, typeOf, eqMixed]
      match xs, ys, h with
      | [], _, .nil => rfl
      | [x], _, .cons h .nil => simpa [eqArrayS, cvs] using cvs_shape hs h
      | _ :: _ :: _, _, .cons _ (.cons _ _) => simp [eqArrayS]
  | obj hk' h => cases hk <;> simp [eqVal, typeOf, eqMixed, eqArrayB]

theorem eqVal_literal_comm {env : Env} {k : V} (hk : LiteralValue env k) (a : V) : eqVal env k a = eqVal env a k := by
  by_cases ht : typeOf k = typeOf a
  · have sc : (∀ xs, k ≠ .arr xs) ∧ ∀ kvs, k ≠ .obj kvs := by cases hk <;> exact ⟨fun _ h => (nomatch h), fun _ h => (nomatch h)⟩
    have sa : (∀ xs, a ≠ .arr xs) ∧ ∀ kvs, a ≠ .obj kvs := by
      constructor <;> (intro xs h; subst h; cases hk <;> cases ht)
    exact Bool.eq_iff_iff.2 ⟨eqVal_symm_other sc, eqVal_symm_other sa⟩
  · rw [eqVal.eq_def env k a, eqVal.eq_def env a k, if_pos (by simpa using ht), if_pos (by simpa using Ne.symm ht), eqMixed_comm _ _ ht]

theorem searchJSON_literals {env : Env} {ks : List V} (hk : ∀ k ∈ ks, LiteralValue env k) {a a' : V} (h : SameShape SameWhole a a') (f : Bool) :
    searchJSON env ks a f = searchJSON env ks a' f := by
  induction ks with
  | nil => rfl
  | cons k ks ih =>
    have h0 := hk k (by simp)
    unfold searchJSON
    rw [eqVal_literal_comm h0, eqVal_literal_comm h0, eqVal_literal h0 h, ih fun k hm => hk k (by simp [hm])]

/-! ### Expressions -/

theorem evalExpr_literal {env : Env} (oracle : Oracle) (root dot : V) {k : Expr} (h : PlainLiteral env k) :
    ∃ v, LiteralValue env v ∧ ∀ t, evalExpr env oracle root dot k t = .ok (v, t) := by
  cases h with
  | int n => exact ⟨_, .int n, fun _ => rfl⟩
  | float x => exact ⟨_, .float x, fun _ => rfl⟩
  | bool b => exact ⟨_, .bool b, fun _ => rfl⟩
  | null => exact ⟨_, .null, fun _ => rfl⟩
  | str s hs => exact ⟨_, .str s hs, fun _ => rfl⟩

theorem evalKids_literals {env : Env} (oracle : Oracle) (root dot : V) : ∀ (ks : List Expr), (∀ k ∈ ks, PlainLiteral env k) →
    ∃ vs, (∀ v ∈ vs, LiteralValue env v) ∧ ∀ t, evalKids env oracle root dot ks t = .ok (vs, t)
  | [], _ => ⟨[], by simp, fun _ => rfl⟩
  | k :: ks, h => by
    obtain ⟨v, h1, h2⟩ := evalExpr_literal oracle root dot (h k (by simp))
    obtain ⟨vs, h3, h4⟩ := evalKids_literals oracle root dot ks fun k hk => h k (by simp [hk])
    refine ⟨v :: vs, ?_, fun t => ?_⟩
    · intro w hw
      rcases List.mem_cons.1 hw with rfl | hw
      · exact h1
      · exact h3 w hw
    · simp [evalKids, h2, h4]

theorem constant_literal {env : Env} {k : Expr} (h : PlainLiteral env k) : Constant k = true := by
  cases h <;> simp [Constant]

theorem constants_literals {env : Env} : ∀ {ks : List Expr}, (∀ k ∈ ks, PlainLiteral env k) → Constants ks = true
  | [], _ => by simp [Constants]
  | k :: ks, h => by
    have ih := constants_literals (ks := ks) fun k hk => h k (by simp [hk])
    simp [Constants, constant_literal (h k (by simp)), ih]

theorem evalExpr_compares {env : Env} (oracle : Oracle) {root root' : V} (hr : SameShape SameWhole root root') {dot dot' : V}
    (hd : SameShape SameWhole dot dot') {e : Expr} (he : Compares env e) :
    ∀ t, RelRes (RelVal SameWhole) (evalExpr env oracle root dot e t) (evalExpr env oracle root' dot' e t) := by
  have hR := keepsTruth_whole env
  have two := @evalExpr_two env SameWhole oracle root root' dot dot'
  have lit : ∀ {k : Expr}, PlainLiteral env k → ∀ t, RelRes (fun x y : V × Nat => (x.1 = y.1 ∧ LiteralValue env x.1) ∧ x.2 = y.2)
      (evalExpr env oracle root dot k t) (evalExpr env oracle root' dot' k t) := by
    intro k hk t
    rw [evalExpr_constant env oracle root root' dot dot' k t (constant_literal hk)]
    obtain ⟨v, h1, h2⟩ := evalExpr_literal oracle root' dot' hk
    rw [h2]
    exact .ok ⟨⟨rfl, h1⟩, rfl⟩
  have refl := sameShape_refl hR
  induction he with
  | current => intro t; exact .ok ⟨hd, rfl⟩
  | root => intro t; exact .ok ⟨hr, rfl⟩
  | constant e hc => exact evalExpr_presence hR oracle hr hd (.constant e hc)
  | dot a s _ ih =>
    refine two (op := .dot) (by decide) (fun _ _ _ => rfl) (SameShape SameWhole) ih (fun x y => x = .name s ∧ y = .name s) (fun t => .ok ⟨⟨rfl, rfl⟩, rfl⟩) ?_
    rintro x x' _ _ hx ⟨rfl, rfl⟩
    exact opDot_shape hR hx s
  | index a k _ hc ih =>
    refine two (op := .index) (by decide) (fun _ _ _ => rfl) (SameShape SameWhole) ih (fun x y => x = y) (fun t => ?_) ?_
    · rw [evalExpr_constant env oracle root root' dot dot' k t hc]
      cases evalExpr env oracle root' dot' k t with
      | ok v => exact .ok ⟨rfl, rfl⟩
      | err e => exact .err e
      | panic m => exact .panic m
      | stuck => exact .stuck
    · rintro x x' y _ hx rfl
      exact .ok (opIndex_shape hR hx y)
  | not a _ ih =>
    intro t
    simp only [evalExpr, evalKids]
    refine RelRes.bind (Q := fun x y : List V × Nat => (∃ v v', x.1 = [v] ∧ y.1 = [v'] ∧ SameShape SameWhole v v') ∧ x.2 = y.2) ?_ ?_
    · refine (ih t).bind ?_
      rintro ⟨v, t2⟩ ⟨v', _⟩ ⟨hv, rfl⟩
      exact .ok ⟨⟨v, v', rfl, rfl, hv⟩, rfl⟩
    · rintro ⟨_, t2⟩ ⟨_, _⟩ ⟨⟨v, v', rfl, rfl, hv⟩, rfl⟩
      have hn := shape_cvb hR hv
      refine .ok ⟨?_, rfl⟩
      show SameShape SameWhole (.bool (!cvb env v)) (.bool (!cvb env v'))
      rw [hn]
      exact refl _
  | and a b _ _ iha ihb =>
    exact two (op := .and) (by decide) (fun _ _ _ => rfl) (SameShape SameWhole) iha (SameShape SameWhole) ihb fun x x' y y' hx hy => .ok (opAnd_shape hR hx hy)
  | or a b _ _ iha ihb =>
    exact two (op := .or) (by decide) (fun _ _ _ => rfl) (SameShape SameWhole) iha (SameShape SameWhole) ihb fun x x' y y' hx hy => .ok (opOr_shape hR hx hy)
  | order op a b hop _ _ iha ihb =>
    have hc : op ≠ .call := by rcases hop with rfl | rfl | rfl | rfl <;> decide
    have key : ∀ {f g sf}, Twins f g → (∀ x y ord, applyOp env ord op [x, y] = .ok (relation env x y f g sf)) →
        ∀ t, RelRes (RelVal SameWhole) (evalExpr env oracle root dot (.inner op [a, b]) t) (evalExpr env oracle root' dot' (.inner op [a, b]) t) := by
      intro f g sf h ha
      refine two (op := op) hc ha (SameShape SameWhole) iha (SameShape SameWhole) ihb fun x x' y y' hx hy => ?_
      rw [relation_whole sf h hx hy]
      exact .ok (refl _)
    rcases hop with rfl | rfl | rfl | rfl
    · exact key twins_lt fun _ _ _ => rfl
    · exact key twins_le fun _ _ _ => rfl
    · exact key twins_ge fun _ _ _ => rfl
    · exact key twins_gt fun _ _ _ => rfl
  | equal op a k hop _ hk ih =>
    rcases hop with rfl | rfl
    · refine two (op := .eq) (by decide) (fun _ _ _ => rfl) (SameShape SameWhole) ih (fun x y => x = y ∧ LiteralValue env x) (lit hk) ?_
      rintro x x' y _ hx ⟨rfl, hl⟩
      rw [eqVal_literal hl hx]
      exact .ok (refl _)
    · refine two (op := .ne) (by decide) (fun _ _ _ => rfl) (SameShape SameWhole) ih (fun x y => x = y ∧ LiteralValue env x) (lit hk) ?_
      rintro x x' y _ hx ⟨rfl, hl⟩
      rw [eqVal_literal hl hx]
      exact .ok (refl _)
  | equal' op k a hop hk _ ih =>
    rcases hop with rfl | rfl
    · refine two (op := .eq) (by decide) (fun _ _ _ => rfl) (fun x y => x = y ∧ LiteralValue env x) (lit hk) (SameShape SameWhole) ih ?_
      rintro x _ y y' ⟨rfl, hl⟩ hy
      rw [eqVal_literal_comm hl, eqVal_literal_comm hl, eqVal_literal hl hy]
      exact .ok (refl _)
    · refine two (op := .ne) (by decide) (fun _ _ _ => rfl) (fun x y => x = y ∧ LiteralValue env x) (lit hk) (SameShape SameWhole) ih ?_
      rintro x _ y y' ⟨rfl, hl⟩ hy
      rw [eqVal_literal_comm hl, eqVal_literal_comm hl, eqVal_literal hl hy]
      exact .ok (refl _)
  | among op a ks hop _ hk ih =>
    have list : ∀ t, RelRes (fun x y : V × Nat => (x.1 = y.1 ∧ ∃ vs, x.1 = .arr vs ∧ ∀ v ∈ vs, LiteralValue env v) ∧ x.2 = y.2)
        (evalExpr env oracle root dot (.inner .array ks) t) (evalExpr env oracle root' dot' (.inner .array ks) t) := by
      intro t
      rw [evalExpr_constant env oracle root root' dot dot' _ t (by simpa [Constant] using constants_literals hk)]
      obtain ⟨vs, h1, h2⟩ := evalKids_literals oracle root' dot' ks hk
      simp only [evalExpr, h2]
      exact .ok ⟨⟨rfl, vs, rfl, h1⟩, rfl⟩
    have key : ∀ (x x' : V) (y y' : V), SameShape SameWhole x x' → (y = y' ∧ ∃ vs, y = .arr vs ∧ ∀ v ∈ vs, LiteralValue env v) →
        RelRes (SameShape SameWhole) (opIn env op x y) (opIn env op x' y') := by
      rintro x x' _ _ hx ⟨rfl, vs, rfl, hl⟩
      unfold opIn
      rw [shape_nothing hR hx]
      dsimp only
      rw [searchJSON_literals hl hx]
      split <;> exact .ok (refl _)
    rcases hop with rfl | rfl
    · exact two (op := .in_) (by decide) (fun _ _ _ => rfl) (SameShape SameWhole) ih (fun y y' => y = y' ∧ ∃ vs, y = .arr vs ∧ ∀ v ∈ vs, LiteralValue env v) list key
    · exact two (op := .nin) (by decide) (fun _ _ _ => rfl) (SameShape SameWhole) ih (fun y y' => y = y' ∧ ∃ vs, y = .arr vs ∧ ∀ v ∈ vs, LiteralValue env v) list key

theorem evalPath_compares {env : Env} (oracle : Oracle) {root root' : V} (h : SameShape SameWhole root root') (q : Path) (hw : q.WF)
    (hq : OnlyCompares env q) : RelRes (RelGo SameWhole) (evalPath env oracle root q) (evalPath env oracle root' q) :=
  evalPath_related (keepsTruth_whole env) oracle h q hw fun s hs e he =>
    ⟨fun hf _ _ hd => evalExpr_compares oracle h hd ((hq s hs e he).1 hf), (hq s hs e he).2⟩

end JP
