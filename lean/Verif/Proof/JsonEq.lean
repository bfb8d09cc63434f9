import Verif.Spec.JsonEq
import Verif.Proof.JsEq
import Verif.Proof.Total
import Verif.Proof.Decimal
import Verif.Proof.Format
import Mathlib.Data.List.Perm.Subperm
/-!
Equality of JSON values.
-/
namespace JP
open Spec F64

variable {env : Env}

theorem isNum_type {a : V} {q : ℚ} (h : IsNum a q) : typeOf a = .number := by cases h <;> rfl

theorem isNum_cvf {a : V} {q : ℚ} (h : IsNum a q) : Rounds q (cvf env a) := by
  cases h with
  | gint n => exact rounds_ofInt _
  | int n => exact rounds_ofInt _
  | float x h => exact rounds_val h

private theorem isNum_int {a : V} {q : ℚ} (h : IsNum a q) (hf : isFloat a = false) : q = ((cvi env a).toInt : ℚ) := by
  cases h with
  | gint n => rfl
  | int n => rfl
  | float x h => cases hf

theorem isNum_eq {a b : V} {q : ℚ} (ha : IsNum a q) (hb : IsNum b q) : eqVal env a b = true := by
  rw [eqVal_numbers (isNum_type ha) (isNum_type hb), eqNum_eq]
  split
  · exact rounds_feq (isNum_cvf ha) (isNum_cvf hb)
  · rename_i hf
    simp only [Bool.or_eq_true, not_or, Bool.not_eq_true] at hf
    have h1 := isNum_int (env := env) ha hf.1
    rw [isNum_int (env := env) hb hf.2] at h1
    rw [beq_iff_eq]
    exact (Int64.toInt_inj.1 (by exact_mod_cast h1)).symm

theorem isNum_exact {a : V} {q : ℚ} (h : IsNum a q) (hf : Fits a) : (cvf env a).val = q := by
  cases h with
  | gint n => exact ofInt_exact hf.1 hf.2
  | int n => exact ofInt_exact hf.1 hf.2
  | float x h => rfl

theorem isNum_only {a b : V} {x y : ℚ} (ha : IsNum a x) (hb : IsNum b y) (hk : (IsInt a ∧ IsInt b) ∨ (Fits a ∧ Fits b))
    (h : eqVal env a b = true) : x = y := by
  rw [eqVal_numbers (isNum_type ha) (isNum_type hb), eqNum_eq] at h
  split at h
  · rename_i hf
    rcases hk with ⟨h1, h2⟩ | ⟨h1, h2⟩
    · cases a <;> first | exact h1.elim | (cases b <;> first | exact h2.elim | simp [isFloat] at hf)
    · have := (key_eq_iff _ _).1 (feq_iff.1 h).2.2
      rw [isNum_exact ha h1, isNum_exact hb h2] at this
      exact this
  · rename_i hf
    simp only [Bool.or_eq_true, not_or, Bool.not_eq_true] at hf
    rw [isNum_int (env := env) ha hf.1, isNum_int (env := env) hb hf.2, beq_iff_eq.1 h]

theorem mem_of_lookup {ms : List (Bytes × V)} {k : Bytes} {v : V} (h : lookup ms k = some v) : (k, v) ∈ ms := by
  induction ms with
  | nil => cases h
  | cons m r ih =>
    obtain ⟨k', w⟩ := m
    unfold lookup at h
    split at h
    · rename_i hk; subst hk; cases h; simp
    · exact List.mem_cons_of_mem _ (ih h)

theorem wf_elem {xs : List V} (h : (V.arr xs).WF) {x : V} (hx : x ∈ xs) : x.WF := by
  simp only [V.WF] at h
  have := h.2
  clear h
  induction xs with
  | nil => cases hx
  | cons a r ih =>
    simp only [WFs] at this
    rcases List.mem_cons.1 hx with rfl | hx
    · exact this.1
    · exact ih hx this.2

theorem wf_member {ms : List (Bytes × V)} (h : (V.obj ms).WF) {m : Bytes × V} (hx : m ∈ ms) : m.2.WF := by
  simp only [V.WF] at h
  have := h.2.2
  clear h
  induction ms with
  | nil => cases hx
  | cons a r ih =>
    obtain ⟨k, v⟩ := a
    simp only [WFm] at this
    rcases List.mem_cons.1 hx with rfl | hx
    · exact this.1
    · exact ih hx this.2

private theorem size_elem {xs : List V} {x : V} (h : x ∈ xs) : sizeOf x < sizeOf (V.arr xs) := by
  have := List.sizeOf_lt_of_mem h
  simp; omega

private theorem size_member {ms : List (Bytes × V)} {m : Bytes × V} (h : m ∈ ms) : sizeOf m.2 < sizeOf (V.obj ms) := by
  have := List.sizeOf_lt_of_mem h
  obtain ⟨k, v⟩ := m
  simp at *; omega

theorem arr_eq {xs ys : List V} : eqVal env (.arr xs) (.arr ys) = true ↔ List.Forall₂ (fun x y => eqVal env x y = true) xs ys := by
  have h1 : eqVal env (.arr xs) (.arr ys) = (xs.length == ys.length && eqElems env xs ys) := by
    rw [eqVal]; simp [typeOf]
  rw [h1, Bool.and_eq_true, beq_iff_eq]
  constructor
  · rintro ⟨h, h2⟩
    rw [eqElems_iff h] at h2
    clear h h1
    induction h2 with
    | nil => exact .nil
    | cons h _ ih => exact .cons h ih
  · intro h
    refine ⟨h.length_eq, ?_⟩
    rw [eqElems_iff h.length_eq]
    clear h1
    induction h with
    | nil => exact .nil
    | cons h _ ih => exact .cons h ih

theorem obj_eq {ms ns : List (Bytes × V)} : eqVal env (.obj ms) (.obj ns) = true ↔
    ms.length = ns.length ∧ ∀ m ∈ ms, eqVal env m.2 ((lookup ns m.1).getD .null) = true := by
  have h1 : eqVal env (.obj ms) (.obj ns) = (ms.length == ns.length && eqMembers env ms ns) := by
    rw [eqVal]; simp [typeOf]
  rw [h1, Bool.and_eq_true, beq_iff_eq, eqMembers_iff]

theorem null_eq {v : V} (hw : v.WF) (h : eqVal env v .null = true) : v = .null := by
  cases v <;> first | rfl | (simp [eqVal, eqMixed, typeOf] at h; done) | exact hw.elim

/-- The same JSON value: equal. -/
theorem jsonEq_eq : ∀ (a b : V), a.WF → b.WF → JsonEq a b → eqVal env a b = true
  | a, b, ha, hw, h => by
    cases h with
    | null => simp [eqVal, typeOf]
    | bool => simp [eqVal, typeOf]
    | str => simp [eqVal, typeOf]
    | number _ _ q h1 h2 => exact isNum_eq h1 h2
    | arr xs ys h =>
      rw [arr_eq]
      have : ∀ x ∈ xs, ∀ y ∈ ys, JsonEq x y → eqVal env x y = true := fun x hx y hy h =>
        have := size_elem hx
        jsonEq_eq x y (wf_elem ha hx) (wf_elem hw hy) h
      clear hw ha
      induction h with
      | nil => exact .nil
      | cons h _ ih =>
        exact .cons (this _ (by simp) _ (by simp) h) (ih fun x hx y hy => this x (by simp [hx]) y (by simp [hy]))
    | obj ms ns hl h =>
      rw [obj_eq]
      have hn1 : (ms.map Prod.fst).Nodup := by simp only [V.WF] at ha; exact ha.2.1
      have hn2 : (ns.map Prod.fst).Nodup := by simp only [V.WF] at hw; exact hw.2.1
      refine ⟨?_, fun m hm => ?_⟩
      · have := ((List.perm_ext_iff_of_nodup hn1 hn2).2 hl).length_eq
        simpa using this
      obtain ⟨⟨k, w⟩, hn, hk⟩ := List.mem_map.1 ((hl m.1).1 (List.mem_map_of_mem hm))
      simp only at hk
      subst hk
      rw [lookup_of_mem hn2 hn]
      have := size_member hm
      exact jsonEq_eq m.2 w (wf_member ha hm) (wf_member hw hn) (h m.1 m.2 w hm hn)
termination_by a => sizeOf a

/-- Equal, and of the same kinds: the same JSON value. -/
theorem eq_jsonEq : ∀ (a b : V), a.WF → b.WF → SameKinds a b → eqVal env a b = true → JsonEq a b
  | a, b, hw, hb, hk, h => by
    cases hk with
    | null => exact .null
    | bool x y => simp [eqVal, typeOf] at h; subst h; exact .bool _
    | str x y => simp [eqVal, typeOf] at h; subst h; exact .str _
    | number _ _ x y h1 h2 h3 =>
      have := isNum_only h1 h2 h3 h
      subst this
      exact .number _ _ _ h1 h2
    | arr xs ys hk =>
      rw [arr_eq] at h
      refine .arr _ _ (List.forall₂_iff_get.2 ⟨h.length_eq, fun i h1 h2 => ?_⟩)
      have hm : xs.get ⟨i, h1⟩ ∈ xs := List.get_mem _ _
      have := size_elem hm
      exact eq_jsonEq _ _ (wf_elem hw hm) (wf_elem hb (List.get_mem _ _)) (hk i _ _ (by simp) (by simp)) ((List.forall₂_iff_get.1 h).2 i h1 h2)
    | obj ms ns hk hn =>
      rw [obj_eq] at h
      have hn1 : (ms.map Prod.fst).Nodup := by simp only [V.WF] at hw; exact hw.2.1
      have hn2 : (ns.map Prod.fst).Nodup := by simp only [V.WF] at hb; exact hb.2.1
      have hsub : ms.map Prod.fst ⊆ ns.map Prod.fst := by
        intro k hk
        obtain ⟨m, hm, rfl⟩ := List.mem_map.1 hk
        have h2 := h.2 m hm
        cases hl : lookup ns m.1 with
        | none =>
          rw [hl] at h2
          refine hn m.1 ?_
          have := null_eq (wf_member hw hm) h2
          rw [← this]
          exact hm
        | some w => exact List.mem_map.2 ⟨_, mem_of_lookup hl, rfl⟩
      have hp := (List.subperm_of_subset hn1 hsub).perm_of_length_le (by simp [h.1])
      refine .obj _ _ (fun k => hp.mem_iff) fun k v w hm hw' => ?_
      have h2 := h.2 _ hm
      simp only [lookup_of_mem hn2 hw', Option.getD_some] at h2
      have := size_member hm
      exact eq_jsonEq _ _ (wf_member hw hm) (wf_member hb hw') (hk k v w hm hw') h2
termination_by a => sizeOf a

theorem isNum_unique {a : V} {x y : ℚ} (h : IsNum a x) (h' : IsNum a y) : x = y := by cases h <;> cases h' <;> rfl

theorem jsonEq_trans : ∀ (a b c : V), JsonEq a b → JsonEq b c → JsonEq a c
  | a, b, c, h, h' => by
    cases h with
    | null => exact h'
    | bool => exact h'
    | str => exact h'
    | number _ _ q h1 h2 =>
      cases h' with
      | number _ _ q' h3 h4 =>
        have := isNum_unique h2 h3
        subst this
        exact .number _ _ _ h1 h4
      | null | bool | str | arr | obj => cases h2
    | arr xs ys h =>
      cases h' with
      | number _ _ q h1 => cases h1
      | arr _ zs h' =>
        refine .arr _ _ (List.forall₂_iff_get.2 ⟨h.length_eq.trans h'.length_eq, fun i h1 h2 => ?_⟩)
        have hm : xs.get ⟨i, h1⟩ ∈ xs := List.get_mem _ _
        have := size_elem hm
        exact jsonEq_trans _ (ys.get ⟨i, h.length_eq ▸ h1⟩) _ ((List.forall₂_iff_get.1 h).2 i h1 _) ((List.forall₂_iff_get.1 h').2 i _ h2)
    | obj ms ns hl h =>
      cases h' with
      | number _ _ q h1 => cases h1
      | obj _ ks hl' h' =>
        refine .obj _ _ (fun k => (hl k).trans (hl' k)) fun k v w hm hn => ?_
        obtain ⟨⟨k', u⟩, hu, hk⟩ := List.mem_map.1 ((hl k).1 (List.mem_map_of_mem hm))
        simp only at hk
        subst hk
        have := size_member hm
        exact jsonEq_trans _ _ _ (h _ v u hm hu) (h' _ u w hu hn)
termination_by a => sizeOf a

end JP
