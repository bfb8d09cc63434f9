import Verif.Spec.Js
import Verif.Proof.F64
import Verif.Proof.Safe
/-! JavaScript equality as the code has it. -/
namespace JP
open JP.Spec

variable {env : Env}

theorem eqNum_eq (a b : V) :
    eqNum env a b = if isFloat a || isFloat b then (cvf env a).feq (cvf env b) else cvi env a == cvi env b := by
  unfold eqNum
  split
  · simp only []
    have h0 : F64.zero.feq F64.zero.fneg = true := by decide
    split
    · rename_i h
      rw [Bool.or_eq_true, Bool.and_eq_true, Bool.and_eq_true] at h
      rcases h with ⟨h1, h2⟩ | ⟨h1, h2⟩
      · rw [F64.feq_left h1, F64.feq_comm, F64.feq_left h2]; exact (by decide)
      · rw [F64.feq_left h2, F64.feq_comm, F64.feq_left h1]; exact h0.symm
    · rfl
  · rfl

theorem eqNum_comm (a b : V) : eqNum env a b = eqNum env b a := by
  rw [eqNum_eq, eqNum_eq, Bool.or_comm, F64.feq_comm]
  split
  · rfl
  · rw [Bool.eq_iff_iff, beq_iff_eq, beq_iff_eq]; exact ⟨Eq.symm, Eq.symm⟩

theorem eqMixed_comm (a b : V) (h : typeOf a ≠ typeOf b) : eqMixed env a b = eqMixed env b a := by
  cases a <;> cases b <;> first
    | rfl
    | (simp only [eqMixed, typeOf]; rw [eqNum_comm]; done)
    | (simp only [eqMixed, typeOf]; rw [F64.feq_comm]; done)
    | (exfalso; exact h rfl)

/-- The element by element comparison. -/
theorem eqElems_iff {xs ys : List V} (h : xs.length = ys.length) :
    eqElems env xs ys = true ↔ All2 (fun x y => eqVal env x y = true) xs ys := by
  induction xs generalizing ys with
  | nil =>
    cases ys with
    | nil => simp only [eqElems, true_iff]; exact .nil
    | cons => cases h
  | cons x xs ih =>
    cases ys with
    | nil => cases h
    | cons y ys =>
      simp only [eqElems, Bool.and_eq_true]
      rw [ih (by simpa using h)]
      constructor
      · rintro ⟨h1, h2⟩; exact .cons h1 h2
      · rintro (_ | ⟨h1, h2⟩); exact ⟨h1, h2⟩

theorem eqMembers_iff {kvs mvs : List (Bytes × V)} :
    eqMembers env kvs mvs = true ↔ ∀ kv ∈ kvs, eqVal env kv.2 ((lookup mvs kv.1).getD .null) = true := by
  induction kvs with
  | nil => simp [eqMembers]
  | cons kv r ih =>
    obtain ⟨k, v⟩ := kv
    simp [eqMembers, ih]

theorem eqVal_arr {xs ys : List V} :
    eqVal env (.arr xs) (.arr ys) = true ↔ All2 (fun x y => eqVal env x y = true) xs ys := by
  rw [show eqVal env (.arr xs) (.arr ys) = (xs.length == ys.length && eqElems env xs ys) by rw [eqVal]; rfl,
    Bool.and_eq_true, beq_iff_eq]
  constructor
  · rintro ⟨h1, h2⟩; exact (eqElems_iff h1).1 h2
  · intro h
    have hl : xs.length = ys.length := by
      induction h with
      | nil => rfl
      | cons _ _ ih => simp [ih]
    exact ⟨hl, (eqElems_iff hl).2 h⟩

theorem eqVal_obj {kvs mvs : List (Bytes × V)} :
    eqVal env (.obj kvs) (.obj mvs) = true ↔
      kvs.length = mvs.length ∧ ∀ kv ∈ kvs, eqVal env kv.2 ((lookup mvs kv.1).getD .null) = true := by
  rw [show eqVal env (.obj kvs) (.obj mvs) = (kvs.length == mvs.length && eqMembers env kvs mvs) by rw [eqVal]; rfl,
    Bool.and_eq_true, beq_iff_eq, eqMembers_iff]

/-- Nothing but null and failure equals null. -/
theorem eqVal_null {v : V} : eqVal env v .null = true ↔ v = .null ∨ Failed v := by
  cases v <;> simp [eqVal, eqMixed, typeOf, Failed]

theorem lookup_none {kvs : List (Bytes × V)} {k : Bytes} (h : lookup kvs k = none) : k ∉ kvs.map Prod.fst := by
  induction kvs with
  | nil => simp
  | cons kv r ih =>
    obtain ⟨k', w⟩ := kv
    unfold lookup at h
    split at h
    · cases h
    · simp only [List.map_cons, List.mem_cons, not_or]
      exact ⟨fun hh => by simp_all, ih h⟩

theorem lookup_of_mem {kvs : List (Bytes × V)} (hn : (kvs.map Prod.fst).Nodup) {k : Bytes} {v : V} (h : (k, v) ∈ kvs) :
    lookup kvs k = some v := by
  induction kvs with
  | nil => simp at h
  | cons kv r ih =>
    obtain ⟨k', w⟩ := kv
    simp only [List.map_cons, List.nodup_cons] at hn
    unfold lookup
    rcases List.mem_cons.1 h with h | h
    · cases h; simp
    · have : k' ≠ k := by
        rintro rfl
        exact hn.1 (List.mem_map.2 ⟨_, h, rfl⟩)
      rw [if_neg this]
      exact ih hn.2 h

/-- A list without repetition, contained in a list that is no longer, contains it. -/
theorem subset_of_nodup {α : Type} [DecidableEq α] {xs ys : List α} (hx : xs.Nodup) (hs : ∀ x ∈ xs, x ∈ ys) (hl : ys.length ≤ xs.length) :
    ∀ y ∈ ys, y ∈ xs := by
  induction xs generalizing ys with
  | nil =>
    intro y hy
    cases ys with
    | nil => exact hy
    | cons => simp at hl
  | cons x xs ih =>
    intro y hy
    by_cases hyx : y = x
    · exact hyx ▸ List.mem_cons_self
    · rw [List.nodup_cons] at hx
      have hm : x ∈ ys := hs x List.mem_cons_self
      refine List.mem_cons_of_mem _ (ih (ys := ys.erase x) hx.2 (fun z hz => ?_) ?_ y ((List.mem_erase_of_ne hyx).2 hy))
      · have : z ≠ x := by rintro rfl; exact hx.1 hz
        exact (List.mem_erase_of_ne this).2 (hs z (List.mem_cons_of_mem _ hz))
      · rw [List.length_erase_of_mem hm]
        simp at hl
        omega

theorem eqVal_symm_other {a b : V} (ha : (∀ xs, a ≠ .arr xs) ∧ ∀ kvs, a ≠ .obj kvs) (h : eqVal env a b = true) : eqVal env b a = true := by
  by_cases ht : typeOf a = typeOf b
  · cases a <;> cases b <;> first
      | (simp only [typeOf, reduceCtorEq] at ht; done)
      | exact absurd rfl (ha.1 _)
      | exact absurd rfl (ha.2 _)
      | (simp [eqVal, typeOf] at h ⊢; first | done | exact h.symm | (rw [eqNum_comm]; exact h))
  · unfold eqVal at h ⊢
    have h1 : (typeOf a != typeOf b) = true := by simpa using ht
    have h2 : (typeOf b != typeOf a) = true := by simpa using (Ne.symm ht)
    rw [if_pos h1] at h
    rw [if_pos h2, eqMixed_comm _ _ (Ne.symm ht)]
    exact h

theorem eqVal_symm_mixed {a b : V} (ht : typeOf a ≠ typeOf b) (h : eqVal env a b = true) : eqVal env b a = true := by
  unfold eqVal at h ⊢
  have h1 : (typeOf a != typeOf b) = true := by simpa using ht
  have h2 : (typeOf b != typeOf a) = true := by simpa using (Ne.symm ht)
  rw [if_pos h1] at h
  rw [if_pos h2, eqMixed_comm _ _ (Ne.symm ht)]
  exact h

/-- If `a` has no null members, then `a == b` implies `b == a`. -/
theorem eqVal_symm {a : V} (ha : NoNullMembers a) : ∀ {b : V}, KeysDistinct a → KeysDistinct b →
    eqVal env a b = true → eqVal env b a = true := by
  induction ha with
  | other v h1 h2 => intro b _ _ h; exact eqVal_symm_other ⟨h1, h2⟩ h
  | arr xs hx ih =>
    intro b hda hdb h
    by_cases ht : typeOf (.arr xs) = typeOf b
    · cases b with
      | arr ys =>
        rw [eqVal_arr] at h ⊢
        replace hda : ∀ x ∈ xs, KeysDistinct x := by
          cases hda with
          | arr _ h => exact h
          | other _ h _ => exact absurd rfl (h xs)
        replace hdb : ∀ x ∈ ys, KeysDistinct x := by
          cases hdb with
          | arr _ h => exact h
          | other _ h _ => exact absurd rfl (h ys)
        clear ht hx
        induction h with
        | nil => exact .nil
        | cons h1 _ ih2 =>
          exact .cons (ih _ List.mem_cons_self (hda _ List.mem_cons_self) (hdb _ List.mem_cons_self) h1)
            (ih2 (fun x hx => ih x (List.mem_cons_of_mem _ hx)) (fun x hx => hda x (List.mem_cons_of_mem _ hx))
              (fun x hx => hdb x (List.mem_cons_of_mem _ hx)))
      | _ => first | (simp [typeOf] at ht; done) | (simp [eqVal, typeOf] at h)
    · exact eqVal_symm_mixed ht h
  | obj kvs hx hnn ih =>
    intro b hda hdb h
    by_cases ht : typeOf (.obj kvs) = typeOf b
    · cases b with
      | obj mvs =>
        rw [eqVal_obj] at h ⊢
        obtain ⟨hlen, hall⟩ := h
        have ⟨hna, hda⟩ : (kvs.map Prod.fst).Nodup ∧ ∀ kv ∈ kvs, KeysDistinct kv.2 := by
          cases hda with
          | obj _ h1 h2 => exact ⟨h1, h2⟩
          | other _ _ h => exact absurd rfl (h kvs)
        have ⟨hnb, hdb⟩ : (mvs.map Prod.fst).Nodup ∧ ∀ kv ∈ mvs, KeysDistinct kv.2 := by
          cases hdb with
          | obj _ h1 h2 => exact ⟨h1, h2⟩
          | other _ _ h => exact absurd rfl (h mvs)
        -- every member of a has a counterpart in b
        have hget : ∀ kv ∈ kvs, ∃ w, lookup mvs kv.1 = some w ∧ eqVal env kv.2 w = true := by
          intro kv hkv
          have := hall kv hkv
          cases hl : lookup mvs kv.1 with
          | some w => rw [hl] at this; exact ⟨w, rfl, this⟩
          | none =>
            rw [hl] at this
            rcases eqVal_null.1 this with h | h
            · exact absurd h (hnn kv hkv).1
            · exact absurd h (hnn kv hkv).2
        refine ⟨hlen.symm, fun mv hmv => ?_⟩
        have hk : mv.1 ∈ kvs.map Prod.fst := by
          refine subset_of_nodup (ys := mvs.map Prod.fst) hna (fun k hk => ?_) (by simp [hlen]) _ (List.mem_map.2 ⟨mv, hmv, rfl⟩)
          obtain ⟨kv, hkv, rfl⟩ := List.mem_map.1 hk
          obtain ⟨w, hw, _⟩ := hget kv hkv
          exact List.mem_map.2 ⟨_, lookup_mem hw, rfl⟩
        obtain ⟨kv, hkv, hkey⟩ := List.mem_map.1 hk
        obtain ⟨w, hw, heq⟩ := hget kv hkv
        have h1 : lookup kvs mv.1 = some kv.2 := lookup_of_mem hna (by rw [← hkey]; exact hkv)
        have h2 : lookup mvs mv.1 = some mv.2 := lookup_of_mem hnb hmv
        rw [hkey, h2] at hw
        injection hw with hw
        subst hw
        rw [h1]
        exact ih kv hkv (hda kv hkv) (hdb mv hmv) heq
      | _ => first | (simp [typeOf] at ht; done) | (simp [eqVal, typeOf] at h)
    · exact eqVal_symm_mixed ht h

/-- Every ordinary value equals itself. -/
theorem eqVal_refl {a : V} (ha : Ordinary a) : KeysDistinct a → eqVal env a a = true := by
  induction ha with
  | null => intro _; simp [eqVal, typeOf]
  | bool => intro _; simp [eqVal, typeOf]
  | str => intro _; simp [eqVal, typeOf]
  | gint => intro _; simp [eqVal, typeOf, eqNum_eq, isFloat]
  | int => intro _; simp [eqVal, typeOf, eqNum_eq, isFloat]
  | float f h => intro _; simp [eqVal, typeOf, eqNum_eq, isFloat, cvf, F64.feq_self, h]
  | arr xs hx ih =>
    intro hd
    replace hd : ∀ x ∈ xs, KeysDistinct x := by
      cases hd with
      | arr _ h => exact h
      | other _ h _ => exact absurd rfl (h xs)
    rw [eqVal_arr]
    clear hx
    induction xs with
    | nil => exact .nil
    | cons x xs ih2 =>
      exact .cons (ih x List.mem_cons_self (hd x List.mem_cons_self))
        (ih2 (fun x hx => ih x (List.mem_cons_of_mem _ hx)) (fun x hx => hd x (List.mem_cons_of_mem _ hx)))
  | obj kvs _ ih =>
    intro hd
    have ⟨hn, hd⟩ : (kvs.map Prod.fst).Nodup ∧ ∀ kv ∈ kvs, KeysDistinct kv.2 := by
      cases hd with
      | obj _ h1 h2 => exact ⟨h1, h2⟩
      | other _ _ h => exact absurd rfl (h kvs)
    rw [eqVal_obj]
    refine ⟨rfl, fun kv hkv => ?_⟩
    rw [lookup_of_mem hn hkv]
    exact ih kv hkv (hd kv hkv)

end JP
