import Verif.Props.Float
import Verif.Proof.Total
/-!
C75: comparisons and one line of numbers.
-/
namespace JP
open Spec F64

variable (env : Env)

private theorem lt_cases {a b : V} (h : Yields2 env .lt a b (.bool true)) :
    (∃ x y, arithmetic? a = some x ∧ arithmetic? b = some y ∧ x.Lt y) ∨ (∃ s t, a = .str s ∧ b = .str t ∧ s < t) := by
  by_cases hs : ∃ s t, a = .str s ∧ b = .str t
  · obtain ⟨s, t, rfl, rfl⟩ := hs
    refine .inr ⟨s, t, rfl, rfl, ?_⟩
    have h1 := (yields2_ok (op := .lt) rfl).1 (C25_strings env s t).yields_lt
    have h2 := (yields2_ok (op := .lt) rfl).1 h
    rw [← h2] at h1
    simpa using h1
  · cases hx : arithmetic? a with
    | some x =>
      cases hy : arithmetic? b with
      | some y => exact .inl ⟨x, y, rfl, rfl, (C25_lt_numbers env a b x y hx hy).1 h⟩
      | none =>
        exfalso
        by_cases hb : Failed b
        · have h1 := (yields2_ok (op := .lt) rfl).1 (C23_propagates env .lt (by decide) a b (.inr hb))
          have h2 := (yields2_ok (op := .lt) rfl).1 h
          rw [← h2] at h1; cases h1
        · have ha : ¬ Failed a := by cases a <;> simp [arithmetic?, Failed] at hx ⊢
          have h1 := (yields2_ok (op := .lt) rfl).1 (C25_incomparable env .lt (by decide) a b ha hb (.inr hy)
            (.inl fun s e => by subst e; cases hx))
          have h2 := (yields2_ok (op := .lt) rfl).1 h
          rw [← h2] at h1; cases h1
    | none =>
      exfalso
      by_cases hf : Failed a ∨ Failed b
      · have h1 := (yields2_ok (op := .lt) rfl).1 (C23_propagates env .lt (by decide) a b hf)
        have h2 := (yields2_ok (op := .lt) rfl).1 h
        rw [← h2] at h1; cases h1
      · rw [not_or] at hf
        have hs' : (∀ s, a ≠ .str s) ∨ (∀ s, b ≠ .str s) := by
          by_contra hc
          rw [not_or] at hc
          push Not at hc
          obtain ⟨⟨s, e1⟩, ⟨t, e2⟩⟩ := hc
          exact hs ⟨s, t, e1, e2⟩
        have h1 := (yields2_ok (op := .lt) rfl).1 (C25_incomparable env .lt (by decide) a b hf.1 hf.2 (.inl hx) hs')
        have h2 := (yields2_ok (op := .lt) rfl).1 h
        rw [← h2] at h1; cases h1

/-- The integers that values can hold. -/
private theorem natAbs_le {a : V} {n : Int} (h : arithmetic? a = some (.int n)) : n.natAbs ≤ 2 ^ 63 := by
  have key : ∀ m : Int64, m.toInt.natAbs ≤ 2 ^ 63 := by
    intro m
    have h1 := Int64.toInt_lt m
    have h2 := Int64.le_toInt m
    omega
  cases a <;> simp [arithmetic?] at h
  · rename_i b; cases b <;> simp [boolToNumber] at h <;> subst h <;> decide
  all_goals subst h; exact key _

private theorem number_lt_iff {x y : Number} (hx : ∀ n, x = .int n → n.natAbs ≤ 2 ^ 63) (hy : ∀ n, y = .int n → n.natAbs ≤ 2 ^ 63)
    (h : x.Lt y) : x.toF64.isNaN = false ∧ y.toF64.isNaN = false ∧ x.toF64.key ≤ y.toF64.key := by
  cases x with
  | int m =>
    cases y with
    | int n => exact ⟨ofInt_not_nan m, ofInt_not_nan n, ofInt_mono (hx _ rfl) (hy _ rfl) (le_of_lt h)⟩
    | float g => obtain ⟨h1, h2, h3⟩ := flt_iff.1 h; exact ⟨h1, h2, le_of_lt h3⟩
  | float f => cases y <;> (obtain ⟨h1, h2, h3⟩ := flt_iff.1 h; exact ⟨h1, h2, le_of_lt h3⟩)

private theorem number_lt_trans {x y z : Number} (hx : ∀ n, x = .int n → n.natAbs ≤ 2 ^ 63) (hy : ∀ n, y = .int n → n.natAbs ≤ 2 ^ 63)
    (hz : ∀ n, z = .int n → n.natAbs ≤ 2 ^ 63) (h1 : x.Lt y) (h2 : y.Lt z) : x.Lt z := by
  obtain ⟨a1, a2, a3⟩ := number_lt_iff hx hy h1
  obtain ⟨b1, b2, b3⟩ := number_lt_iff hy hz h2
  cases x with
  | int m =>
    cases z with
    | int n =>
      cases y with
      | int k => exact lt_trans h1 h2
      | float f =>
        obtain ⟨-, -, c1⟩ := flt_iff.1 h1
        obtain ⟨-, -, c2⟩ := flt_iff.1 h2
        by_contra hc
        have := ofInt_mono (hz _ rfl) (hx _ rfl) (not_lt.1 hc)
        simp only [Number.toF64] at c1 c2
        omega
    | float g =>
      refine flt_iff.2 ⟨a1, b2, ?_⟩
      cases y with
      | int k => exact lt_of_le_of_lt a3 (flt_iff.1 h2).2.2
      | float f => exact lt_of_lt_of_le (flt_iff.1 h1).2.2 b3
  | float e =>
    have goal : Number.toF64 (.float e) |>.flt z.toF64 := by
      refine flt_iff.2 ⟨a1, b2, ?_⟩
      cases y with
      | int k => exact lt_of_lt_of_le (flt_iff.1 h1).2.2 b3
      | float f => exact lt_of_lt_of_le (flt_iff.1 h1).2.2 b3
    cases z <;> exact goal

/-- `<` is transitive, whatever the values: also between integers and floats that cannot hold them. -/
theorem C75_lt_transitive (a b c : V) (h1 : Yields2 env .lt a b (.bool true)) (h2 : Yields2 env .lt b c (.bool true)) :
    Yields2 env .lt a c (.bool true) := by
  rcases lt_cases env h1 with ⟨x, y, hx, hy, hl⟩ | ⟨s, t, rfl, rfl, hl⟩
  · rcases lt_cases env h2 with ⟨y', z, hy', hz, hl'⟩ | ⟨s, t, rfl, rfl, hl'⟩
    · rw [hy] at hy'; cases hy'
      exact (C25_lt_numbers env a c x z hx hz).2 (number_lt_trans (fun n e => natAbs_le (e ▸ hx)) (fun n e => natAbs_le (e ▸ hy))
        (fun n e => natAbs_le (e ▸ hz)) hl hl')
    · cases hy
  · rcases lt_cases env h2 with ⟨y', z, hy', hz, hl'⟩ | ⟨s', t', e, rfl, hl'⟩
    · cases hy'
    · cases e
      have := (C25_strings env s t').yields_lt
      rwa [decide_eq_true (List.lt_trans hl hl')] at this

example := C75_lt_transitive Ex.env (.int 9007199254740992) (.int 9007199254740993) (.float (.ofInt 9007199254740994))
  ((yields2_ok rfl).2 (by krfl)) ((yields2_ok rfl).2 (by krfl))

/-- Nothing is less than itself. -/
theorem C75_lt_irreflexive (a : V) : ¬ Yields2 env .lt a a (.bool true) := by
  intro h
  rcases lt_cases env h with ⟨x, y, hx, hy, hl⟩ | ⟨s, t, hs, ht, hl⟩
  · rw [hx] at hy; cases hy
    cases x with
    | int n => exact lt_irrefl n hl
    | float f => exact lt_irrefl _ (flt_iff.1 hl).2.2
  · rw [hs] at ht; cases ht
    exact List.lt_irrefl _ hl

example := C75_lt_irreflexive Ex.env (.arr [])

/-- And so `a < b` and `b < a` are never both true. -/
theorem C75_lt_asymmetric (a b : V) (h1 : Yields2 env .lt a b (.bool true)) : ¬ Yields2 env .lt b a (.bool true) :=
  fun h2 => C75_lt_irreflexive env a (C75_lt_transitive env a b a h1 h2)

example := C75_lt_asymmetric Ex.env (.int 1) (.float (.ofInt 2)) ((yields2_ok rfl).2 (by krfl))

/-- Full statement: `==` and `<=` are transitive on numbers. -/
def LineRule : Prop :=
  ∀ op ∈ [Op.eq, .le], ∀ (a b c : V) (x y z : Number), arithmetic? a = some x → arithmetic? b = some y → arithmetic? c = some z →
    Yields2 env op a b (.bool true) → Yields2 env op b c (.bool true) → Yields2 env op a c (.bool true)

/-- It is false for both: an integer of 54 bits equals the float that it is rounded to, and that equals another integer.
Here 9007199254740993 == 9007199254740992.0 and 9007199254740992.0 == 9007199254740992. -/
theorem C75_eq_fails : ¬ LineRule env := by
  intro h
  have := h .eq (by simp) (.int 9007199254740993) (.float (.ofInt 9007199254740992)) (.int 9007199254740992) _ _ _ rfl rfl rfl
    ((yields2_ok rfl).2 (by krfl)) ((yields2_ok rfl).2 (by krfl))
  have h2 := (yields2_ok (op := .eq) rfl).1 this
  have h3 : eqVal env (.int 9007199254740993) (.int 9007199254740992) = false := by
    simp [eqVal, typeOf, eqNum, isFloat, cvi]
  rw [h3] at h2
  cases h2
@[inherit_doc C75_eq_fails] theorem C75_le_fails : ¬ LineRule env := by
  intro h
  have := h .le (by simp) (.int 9007199254740993) (.float (.ofInt 9007199254740992)) (.int 9007199254740992) _ _ _ rfl rfl rfl
    ((yields2_ok rfl).2 (by krfl)) ((yields2_ok rfl).2 (by krfl))
  have h2 := (yields2_ok (op := .le) rfl).1 this
  have h3 : relation env (.int 9007199254740993) (.int 9007199254740992) (· ≤ ·) F64.fle (fun s t => !bytesLt t s) = .bool false := by krfl
  rw [h3] at h2
  cases h2

private theorem eq_iff {a b : V} {x y : Number} (ha : arithmetic? a = some x) (hb : arithmetic? b = some y) :
    Yields2 env .eq a b (.bool true) ↔ x.Eq y := by
  have e : Yields2 env .eq a b (.bool true) ↔ eqVal env a b = true := by
    rw [yields2_ok rfl]
    constructor
    · intro h; injection h with h; exact h.symm
    · intro h; rw [h]
  rw [e]
  have key : ∀ v : V, ∀ z, arithmetic? v = some z → (∃ n : Int64, z = .int n.toInt ∧ cvi env v = n ∧ isFloat v = false ∧ cvf env v = .ofInt n.toInt ∧
      (v = .gint n ∨ v = .int n ∨ ∃ b : Bool, v = .bool b ∧ n = if b then 1 else 0)) ∨ ∃ f, z = .float f ∧ v = .float f := by
    intro v z hv
    cases v with
    | bool b =>
      refine .inl ⟨if b then 1 else 0, ?_, rfl, rfl, ?_, .inr (.inr ⟨b, rfl, rfl⟩)⟩
      · cases hv; cases b <;> rfl
      · rw [bool_cvf]; cases b <;> rfl
    | gint n => cases hv; exact .inl ⟨n, rfl, rfl, rfl, rfl, .inl rfl⟩
    | int n => cases hv; exact .inl ⟨n, rfl, rfl, rfl, rfl, .inr (.inl rfl)⟩
    | float f => cases hv; exact .inr ⟨f, rfl, rfl⟩
    | _ => cases hv
  have hE : eqVal env a b = eqNum env a b := by
    rcases key a x ha with ⟨m, -, -, -, -, rfl | rfl | ⟨p, rfl, -⟩⟩ | ⟨f, -, rfl⟩ <;>
      rcases key b y hb with ⟨n, -, -, -, -, rfl | rfl | ⟨q, rfl, -⟩⟩ | ⟨g, -, rfl⟩ <;>
      simp [eqVal, eqMixed, typeOf, eqNum_eq, isFloat, cvi]
    cases p <;> cases q <;> decide
  rw [hE, eqNum_eq]
  rcases key a x ha with ⟨m, rfl, h1, h2, h3, -⟩ | ⟨f, rfl, rfl⟩ <;> rcases key b y hb with ⟨n, rfl, k1, k2, k3, -⟩ | ⟨g, rfl, rfl⟩
  · simp [h1, h2, k1, k2, Number.Eq, ← Int64.toInt_inj]
  · have hg : cvf env (.float g) = g := rfl
    simp [h2, h3, hg, isFloat, Number.Eq, Number.toF64]
  · have hf : cvf env (.float f) = f := rfl
    simp [k2, k3, hf, isFloat, Number.Eq, Number.toF64]
  · simp [isFloat, cvf, Number.Eq, Number.toF64]

/-- On numbers of at most 53 bits, both are comparisons of floats. -/
private theorem small_eq {x y : Number} (hx : x.Small) (hy : y.Small) : x.Eq y ↔ x.toF64.feq y.toF64 = true := by
  cases x with
  | float f => cases y <;> exact Iff.rfl
  | int m =>
    cases y with
    | float g => exact Iff.rfl
    | int n =>
      show m = n ↔ (ofInt m).feq (ofInt n) = true
      rw [feq_iff, key_eq_iff, ofInt_exact hx.1 hx.2, ofInt_exact hy.1 hy.2]
      simp [ofInt_not_nan]
private theorem small_lt {x y : Number} (hx : x.Small) (hy : y.Small) : x.Lt y ↔ x.toF64.flt y.toF64 = true := by
  cases x with
  | float f => cases y <;> exact Iff.rfl
  | int m =>
    cases y with
    | float g => exact Iff.rfl
    | int n =>
      show m < n ↔ (ofInt m).flt (ofInt n) = true
      rw [flt_iff, key_lt_iff, ofInt_exact hx.1 hx.2, ofInt_exact hy.1 hy.2]
      simp [ofInt_not_nan]

/-- Integers of at most 53 bits, and finite floats: every comparison is that of the numbers themselves, so all laws of the line hold. -/
theorem C75_line_partial (a b : V) (x y : Number) (ha : arithmetic? a = some x) (hb : arithmetic? b = some y) (hx : x.Small) (hy : y.Small)
    (bx : x.Bounded) (by' : y.Bounded) :
    Coherent env a b (decide (x.exact < y.exact)) (decide (x.exact = y.exact)) (decide (y.exact < x.exact)) := by
  have fin : ∀ z : Number, z.Small → z.Bounded → z.toF64.isNaN = false ∧ z.toF64.val = z.exact := by
    intro z h1 h2
    cases z with
    | int n => exact ⟨ofInt_not_nan n, ofInt_exact h1.1 h1.2⟩
    | float f => exact ⟨(not_special h2).1, rfl⟩
  obtain ⟨nx, ex⟩ := fin x hx bx
  obtain ⟨ny, ey⟩ := fin y hy by'
  obtain ⟨lt, eq, gt, hc⟩ := C25_numbers env a b x y ha hb nx ny
  have h1 : lt = decide (x.exact < y.exact) := by
    have h := C25_lt_numbers env a b x y ha hb
    have h2 := (yields2_ok (op := .lt) rfl).1 hc.yields_lt
    rw [yields2_ok (op := .lt) rfl, ← h2, small_lt hx hy, flt_iff, key_lt_iff, ex, ey] at h
    simp only [nx, ny, true_and] at h
    rw [Bool.eq_iff_iff, decide_eq_true_eq, ← h]
    simp [eq_comm]
  have h2 : eq = decide (x.exact = y.exact) := by
    have h := eq_iff env ha hb
    have h2 := (yields2_ok (op := .eq) rfl).1 hc.yields_eq
    rw [yields2_ok (op := .eq) rfl, ← h2, small_eq hx hy, feq_iff, key_eq_iff, ex, ey] at h
    simp only [nx, ny, true_and] at h
    rw [Bool.eq_iff_iff, decide_eq_true_eq, ← h]
    simp [eq_comm]
  have h3 : gt = decide (y.exact < x.exact) := by
    have h := C25_lt_numbers env b a y x hb ha
    have h2 := (yields2_ok (op := .gt) rfl).1 hc.yields_gt
    rw [(C25_swap env b a _).1, yields2_ok (op := .gt) rfl, ← h2, small_lt hy hx, flt_iff, key_lt_iff, ex, ey] at h
    simp only [nx, ny, true_and] at h
    rw [Bool.eq_iff_iff, decide_eq_true_eq, ← h]
    simp [eq_comm]
  rw [← h1, ← h2, ← h3]
  exact hc

example := C75_line_partial Ex.env (.int (2 ^ 53)) (.float (.ofInt (2 ^ 53))) (.int (2 ^ 53)) (.float (.ofInt (2 ^ 53))) rfl rfl
  ⟨by norm_num, le_refl _⟩ trivial trivial (ofInt_finite _ (by decide))

/-- So `==` is transitive on integers of at most 53 bits and all floats. -/
theorem C75_eq_partial (a b c : V) (x y z : Number) (ha : arithmetic? a = some x) (hb : arithmetic? b = some y) (hc : arithmetic? c = some z)
    (hx : x.Small) (hy : y.Small) (hz : z.Small) (h1 : Yields2 env .eq a b (.bool true)) (h2 : Yields2 env .eq b c (.bool true)) :
    Yields2 env .eq a c (.bool true) := by
  rw [eq_iff env ha hb, small_eq hx hy] at h1
  rw [eq_iff env hb hc, small_eq hy hz] at h2
  rw [eq_iff env ha hc, small_eq hx hz, feq_left h1, h2]

example := C75_eq_partial Ex.env (.int 1) (.float .one) (.bool true) _ _ _ rfl rfl rfl (by constructor <;> decide) trivial
  (by constructor <;> decide) ((yields2_ok rfl).2 (by krfl)) ((yields2_ok rfl).2 (by krfl))

/-- Equal numbers of this kind compare alike with every other number of this kind. -/
theorem C75_replace_partial (a b c : V) (x y z : Number) (ha : arithmetic? a = some x) (hb : arithmetic? b = some y) (hc : arithmetic? c = some z)
    (hx : x.Small) (hy : y.Small) (hz : z.Small) (h1 : Yields2 env .eq a b (.bool true)) :
    (Yields2 env .lt a c (.bool true) ↔ Yields2 env .lt b c (.bool true)) ∧
      (Yields2 env .lt c a (.bool true) ↔ Yields2 env .lt c b (.bool true)) := by
  rw [eq_iff env ha hb, small_eq hx hy, feq_iff] at h1
  obtain ⟨n1, n2, k⟩ := h1
  rw [C25_lt_numbers env a c x z ha hc, C25_lt_numbers env b c y z hb hc, C25_lt_numbers env c a z x hc ha, C25_lt_numbers env c b z y hc hb,
    small_lt hx hz, small_lt hy hz, small_lt hz hx, small_lt hz hy, flt_iff, flt_iff, flt_iff, flt_iff, k, n1, n2]
  exact ⟨Iff.rfl, Iff.rfl⟩

example := C75_replace_partial Ex.env (.int 1) (.float .one) (.int 2) _ _ _ rfl rfl rfl (by constructor <;> decide) trivial
  (by constructor <;> decide) ((yields2_ok rfl).2 (by krfl))

end JP
