import Verif.Spec.JsonNumber
import Verif.Proof.Presence
import Verif.Proof.Ops
import Verif.Proof.Decimal
/-!
Numbers kept as texts.
-/
namespace JP
open Spec F64

variable {env : Env}

/-- The text of a number is true when the number is. -/
theorem num_cvb {s : Bytes} {neg : Bool} {q : ℚ} {e : ℤ} {x : F64} (h : DecimalText s neg q e) (hs : Sane s e) (hf : x.Finite) (hx : Rounds q x) :
    cvb env (.num s) = cvb env (.float x) := by
  have hq : |q| < limit := by
    rw [← not_le, ← hx.overflow, (not_special hf).2]; simp
  obtain ⟨f, h1, h2, h3, -⟩ := (parseFloat_decimal (env := env) h hs).2 hq
  have hfx := rounds_feq h3 hx
  have hz : x.feq (fneg .zero) = x.feq .zero := by
    rw [F64.feq_comm x, F64.feq_comm x]
    exact F64.feq_left (by decide)
  have key : cvb env (.float x) = !f.feq .zero := by
    simp only [cvb, hx.not_nan, hz, F64.feq_left hfx]
    cases x.feq .zero <;> rfl
  rw [key]
  simp only [cvb, h1]
  cases hp : parseInt s with
  | none => rfl
  | some n =>
    obtain ⟨neg', hd⟩ := parseInt_text hp
    have hn : |(n.toInt : ℚ)| < limit := by
      rw [← not_le]
      intro hc
      have := (parseFloat_decimal (env := env) hd (.inl (by decide))).1 hc
      rw [h1] at this
      cases this
    obtain ⟨g, g1, -, g3, -⟩ := (parseFloat_decimal (env := env) hd (.inl (by decide))).2 hn
    rw [h1] at g1
    cases g1
    have := F64.feq_left (z := .zero) (rounds_feq g3 (rounds_ofInt n.toInt))
    simp only [this]
    by_cases h0 : n = 0
    · subst h0; decide
    · have h2 : (ofInt n.toInt).feq .zero = false := by
        rw [Bool.eq_false_iff, Ne, ofInt_feq_zero]
        intro hc
        exact h0 (Int64.toInt_inj.1 (by rw [hc]; rfl))
      simp [h2, h0]

/-- A text is never equal to anything. -/
theorem num_eq (s : Bytes) (b : V) : eqVal env (.num s) b = false ∧ eqVal env b (.num s) = false := by
  constructor
  · unfold eqVal
    split
    · cases b <;> simp [eqMixed, typeOf, eqArrayB]
    · rfl
  · unfold eqVal
    split
    · cases b <;> simp [eqMixed, typeOf, eqArrayB]
    · cases b <;> simp_all [typeOf]

theorem keepsTruth_asFloat : KeepsTruth env AsFloat := by
  refine ⟨fun v _ => .same v, ?_⟩
  rintro a b h
  cases h with
  | same => exact .inl rfl
  | number s neg q e x h hs hf hx =>
    refine .inr ⟨trivial, trivial, ?_⟩
    unfold truthy
    rw [num_cvb h hs hf hx]
    rfl

theorem num_search (s : Bytes) (xs : List V) (f : Bool) : searchJSON env xs (.num s) f = !f := by
  induction xs with
  | nil => rfl
  | cons x xs ih => unfold searchJSON; rw [(num_eq s x).2, ih]; rfl

theorem num_contains (s : Bytes) (xs : List V) : containsElem env (.num s) xs = false := by
  induction xs with
  | nil => rfl
  | cons x xs ih => unfold containsElem; rw [(num_eq s x).2, ih]; rfl

theorem arithLoop_num (f : Nat → F64 → F64 → F64) : ∀ (xs : List V) (i : Nat) (r : F64), (∃ s, V.num s ∈ xs) → arithLoop env f i r xs = .err .type
  | [], _, _, h => by simp at h
  | x :: xs, i, r, h => by
    unfold arithLoop
    split
    · rfl
    · refine arithLoop_num f xs _ _ ?_
      obtain ⟨s, h⟩ := h
      rcases List.mem_cons.1 h with rfl | h
      · simp [isArith] at *
      · exact ⟨s, h⟩

theorem avgLoop_num (n : Nat) : ∀ (xs : List V) (r : F64), (∃ s, V.num s ∈ xs) → avgLoop env n r xs = .err .type
  | [], _, h => by simp at h
  | x :: xs, r, h => by
    unfold avgLoop
    split
    · rfl
    · refine avgLoop_num n xs _ ?_
      obtain ⟨s, h⟩ := h
      rcases List.mem_cons.1 h with rfl | h
      · simp [isArith] at *
      · exact ⟨s, h⟩

theorem stringLoop_num (f : Nat → Bytes → Bytes → Bytes) : ∀ (xs : List V) (i : Nat) (r : Bytes), (∃ s, V.num s ∈ xs) → stringLoop f i r xs = .err .type
  | [], _, _, h => by simp at h
  | x :: xs, i, r, h => by
    unfold stringLoop
    split
    · cases ‹_ :: _ = []›
    · rename_i heq
      cases heq
      refine stringLoop_num f xs _ _ ?_
      obtain ⟨s, h⟩ := h
      rcases List.mem_cons.1 h with h | h
      · cases h
      · exact ⟨s, h⟩
    · rfl

theorem arithArrayOp_num (f : Nat → F64 → F64 → F64) {xs : List V} (h : ∃ s, V.num s ∈ xs) : arithArrayOp env xs f = .err .type := by
  unfold arithArrayOp
  split
  · simp at h
  · exact arithLoop_num f _ _ _ h

theorem minMaxArray_num (f : Nat → F64 → F64 → F64) (g : Nat → Bytes → Bytes → Bytes) {xs : List V} (h : ∃ s, V.num s ∈ xs) :
    minMaxArray env xs f g = .err .type := by
  unfold minMaxArray
  split
  · simp at h
  · exact arithArrayOp_num f h
  · exact arithArrayOp_num f h
  · exact arithArrayOp_num f h
  · unfold stringArrayOp
    exact stringLoop_num g _ _ _ h
  · rfl

end JP
