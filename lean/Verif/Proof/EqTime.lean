import Verif.Model.EqTime
import Verif.Spec.Locate
import Verif.Proof.RunDepth
import Verif.Proof.Locate
import Verif.Proof.Eq
/-!
How many calls comparisons take.
-/
namespace JP
open Spec

theorem untilFalse_fst : ∀ l, (untilFalse l).1 = l.all Prod.fst
  | [] => rfl
  | (true, n) :: r => by simp [untilFalse, untilFalse_fst r]
  | (false, n) :: r => by simp [untilFalse]

theorem untilFalse_le : ∀ l, (untilFalse l).2 ≤ (l.map Prod.snd).sum
  | [] => Nat.le_refl _
  | (true, n) :: r => by have := untilFalse_le r; simp [untilFalse]; omega
  | (false, n) :: r => by simp [untilFalse]

theorem untilFalse_true : ∀ l, l.all Prod.fst = true → (untilFalse l).2 = (l.map Prod.snd).sum
  | [], _ => rfl
  | (true, n) :: r, h => by
    have := untilFalse_true r (by simpa using h)
    simp [untilFalse, this]
  | (false, n) :: r, h => by simp at h

theorem nEqMembers_length (env : Env) (ord : Ord) (loc : List Nat) (mvs : List (Bytes × V)) : ∀ (kvs : List (Bytes × V)) (i : Nat),
    (nEqMembers env ord loc i kvs mvs).length = kvs.length
  | [], i => by rw [nEqMembers]; rfl
  | _ :: r, i => by rw [nEqMembers]; simp [nEqMembers_length env ord loc mvs r]

theorem nEqMembers_perm {env : Env} {ord : Ord} (ho : ord.Valid) (loc : List Nat) (kvs mvs : List (Bytes × V)) :
    (permute (ord loc kvs.length) (nEqMembers env ord loc 0 kvs mvs)).Perm (nEqMembers env ord loc 0 kvs mvs) :=
  permute_perm (by rw [nEqMembers_length]; exact ho loc kvs.length)

theorem untilFalse_perm {l l' : List (Bool × Nat)} (h : l.Perm l') : (untilFalse l).1 = l'.all Prod.fst ∧ (untilFalse l).2 ≤ (l'.map Prod.snd).sum ∧
    (l'.all Prod.fst = true → (untilFalse l).2 = (l'.map Prod.snd).sum) := by
  refine ⟨?_, ?_, fun ht => ?_⟩
  · rw [untilFalse_fst, h.all_eq]
  · rw [← (h.map Prod.snd).sum_eq]; exact untilFalse_le l
  · rw [← (h.map Prod.snd).sum_eq]; exact untilFalse_true l (by rw [h.all_eq]; exact ht)

theorem nEqVal_leaf (env : Env) (ord : Ord) {a : V} (h1 : ∀ xs, a ≠ .arr xs) (h2 : ∀ kvs, a ≠ .obj kvs) (loc : List Nat) (b : V) :
    nEqVal env ord loc a b = (eqVal env a b, 1) := by
  rw [nEqVal.eq_def]
  by_cases ht : typeOf a = typeOf b
  · rw [if_neg (by simpa using ht)]
    cases a <;> first | rfl | exact absurd rfl (h1 _) | exact absurd rfl (h2 _)
  · rw [if_pos (by simpa using ht), eqVal_atom env ht]

/-- A comparison of values that are not both arrays nor both objects is one call. -/
theorem nEqVal_cases (env : Env) {ord : Ord} (ho : ord.Valid) (loc : List Nat) (a b : V) :
    nEqVal env ord loc a b = (eqVal env a b, 1) ∨
    (∃ xs ys, a = .arr xs ∧ b = .arr ys ∧ xs.length = ys.length ∧ eqVal env a b = eqElems env xs ys ∧
      nEqVal env ord loc a b = ((nEqElems env ord loc 0 xs ys).1, (nEqElems env ord loc 0 xs ys).2 + 1)) ∨
    (∃ kvs mvs l, a = .obj kvs ∧ b = .obj mvs ∧ kvs.length = mvs.length ∧ eqVal env a b = eqMembers env kvs mvs ∧
      l.Perm (nEqMembers env ord loc 0 kvs mvs) ∧ nEqVal env ord loc a b = ((untilFalse l).1, (untilFalse l).2 + 1)) := by
  by_cases ht : typeOf a = typeOf b
  · by_cases h1 : ∃ xs, a = .arr xs
    · obtain ⟨xs, rfl⟩ := h1
      rw [nEqVal.eq_def, if_neg (by simpa using ht), eqVal.eq_def, if_neg (by simpa using ht)]
      dsimp only
      cases b <;> try exact .inl rfl
      rename_i ys
      dsimp only
      by_cases hl : xs.length = ys.length
      · exact .inr (.inl ⟨xs, ys, rfl, rfl, hl, by simp [hl], by rw [if_pos (by simpa using hl)]⟩)
      · exact .inl (by rw [if_neg (by simpa using hl)]; simp [hl])
    · by_cases h2 : ∃ kvs, a = .obj kvs
      · obtain ⟨kvs, rfl⟩ := h2
        rw [nEqVal.eq_def, if_neg (by simpa using ht), eqVal.eq_def, if_neg (by simpa using ht)]
        dsimp only
        cases b <;> try exact .inl rfl
        rename_i mvs
        dsimp only
        by_cases hl : kvs.length = mvs.length
        · exact .inr (.inr ⟨kvs, mvs, _, rfl, rfl, hl, by simp [hl], nEqMembers_perm ho loc kvs mvs, by rw [if_pos (by simpa using hl)]⟩)
        · exact .inl (by rw [if_neg (by simpa using hl)]; simp [hl])
      · exact .inl (nEqVal_leaf env ord (fun xs h => h1 ⟨xs, h⟩) (fun kvs h => h2 ⟨kvs, h⟩) loc b)
  · exact .inl (by rw [nEqVal.eq_def, if_pos (by simpa using ht), eqVal_atom env ht])

/-! ### The result -/

mutual
theorem nEqVal_same (env : Env) {ord : Ord} (ho : ord.Valid) : ∀ (a : V) (loc : List Nat) (b : V), (nEqVal env ord loc a b).1 = eqVal env a b
  | .arr xs, loc, b => by
    rcases nEqVal_cases env ho loc (.arr xs) b with h | ⟨_, ys, he, _, hl, h1, h⟩ | ⟨_, _, _, he, _⟩
    · rw [h]
    · cases he; rw [h, h1]; exact nEqElems_same env ho xs loc 0 ys
    · cases he
  | .obj kvs, loc, b => by
    rcases nEqVal_cases env ho loc (.obj kvs) b with h | ⟨_, _, he, _⟩ | ⟨_, mvs, l, he, _, hl, h1, hp, h⟩
    · rw [h]
    · cases he
    · cases he; rw [h, h1]; exact (untilFalse_perm hp).1.trans (nEqMembers_same env ho kvs loc 0 mvs)
  | .null, loc, b => by rw [nEqVal_leaf env ord (by simp) (by simp)]
  | .bool _, loc, b => by rw [nEqVal_leaf env ord (by simp) (by simp)]
  | .gint _, loc, b => by rw [nEqVal_leaf env ord (by simp) (by simp)]
  | .int _, loc, b => by rw [nEqVal_leaf env ord (by simp) (by simp)]
  | .float _, loc, b => by rw [nEqVal_leaf env ord (by simp) (by simp)]
  | .str _, loc, b => by rw [nEqVal_leaf env ord (by simp) (by simp)]
  | .num _, loc, b => by rw [nEqVal_leaf env ord (by simp) (by simp)]
  | .name _, loc, b => by rw [nEqVal_leaf env ord (by simp) (by simp)]
  | .re _, loc, b => by rw [nEqVal_leaf env ord (by simp) (by simp)]
  | .slice _, loc, b => by rw [nEqVal_leaf env ord (by simp) (by simp)]
  | .err _, loc, b => by rw [nEqVal_leaf env ord (by simp) (by simp)]
theorem nEqElems_same (env : Env) {ord : Ord} (ho : ord.Valid) : ∀ (xs : List V) (loc : List Nat) (i : Nat) (ys : List V),
    (nEqElems env ord loc i xs ys).1 = eqElems env xs ys
  | [], loc, i, ys => by rw [nEqElems, eqElems]
  | x :: xs, loc, i, [] => by rw [nEqElems, eqElems]
  | x :: xs, loc, i, y :: ys => by
    rw [nEqElems, eqElems, nEqVal_same env ho x]
    cases eqVal env x y with
    | true => simpa using nEqElems_same env ho xs loc (i + 1) ys
    | false => rfl
theorem nEqMembers_same (env : Env) {ord : Ord} (ho : ord.Valid) : ∀ (kvs : List (Bytes × V)) (loc : List Nat) (i : Nat) (mvs : List (Bytes × V)),
    (nEqMembers env ord loc i kvs mvs).all Prod.fst = eqMembers env kvs mvs
  | [], loc, i, mvs => by rw [nEqMembers, eqMembers]; rfl
  | (k, v) :: r, loc, i, mvs => by
    rw [nEqMembers, eqMembers, List.all_cons, nEqVal_same env ho v, nEqMembers_same env ho r loc (i + 1) mvs]
end

/-! ### The number of calls -/

mutual
theorem nEqVal_left (env : Env) {ord : Ord} (ho : ord.Valid) : ∀ (a : V) (loc : List Nat) (b : V), (nEqVal env ord loc a b).2 ≤ count a
  | .arr xs, loc, b => by
    rcases nEqVal_cases env ho loc (.arr xs) b with h | ⟨_, ys, he, _, hl, h1, h⟩ | ⟨_, _, _, he, _⟩
    · rw [h]; exact count_pos _
    · cases he; rw [h]; have := nEqElems_left env ho xs loc 0 ys; simp only [count]; omega
    · cases he
  | .obj kvs, loc, b => by
    rcases nEqVal_cases env ho loc (.obj kvs) b with h | ⟨_, _, he, _⟩ | ⟨_, mvs, l, he, _, hl, h1, hp, h⟩
    · rw [h]; exact count_pos _
    · cases he
    · cases he; rw [h]; have := nEqMembers_left env ho kvs loc 0 mvs; have := (untilFalse_perm hp).2.1; simp only [count]; omega
  | .null, loc, b => by rw [nEqVal_leaf env ord (by simp) (by simp)]; exact count_pos _
  | .bool _, loc, b => by rw [nEqVal_leaf env ord (by simp) (by simp)]; exact count_pos _
  | .gint _, loc, b => by rw [nEqVal_leaf env ord (by simp) (by simp)]; exact count_pos _
  | .int _, loc, b => by rw [nEqVal_leaf env ord (by simp) (by simp)]; exact count_pos _
  | .float _, loc, b => by rw [nEqVal_leaf env ord (by simp) (by simp)]; exact count_pos _
  | .str _, loc, b => by rw [nEqVal_leaf env ord (by simp) (by simp)]; exact count_pos _
  | .num _, loc, b => by rw [nEqVal_leaf env ord (by simp) (by simp)]; exact count_pos _
  | .name _, loc, b => by rw [nEqVal_leaf env ord (by simp) (by simp)]; exact count_pos _
  | .re _, loc, b => by rw [nEqVal_leaf env ord (by simp) (by simp)]; exact count_pos _
  | .slice _, loc, b => by rw [nEqVal_leaf env ord (by simp) (by simp)]; exact count_pos _
  | .err _, loc, b => by rw [nEqVal_leaf env ord (by simp) (by simp)]; exact count_pos _
theorem nEqElems_left (env : Env) {ord : Ord} (ho : ord.Valid) : ∀ (xs : List V) (loc : List Nat) (i : Nat) (ys : List V),
    (nEqElems env ord loc i xs ys).2 ≤ counts xs
  | [], loc, i, ys => by rw [nEqElems]; exact Nat.zero_le _
  | x :: xs, loc, i, [] => by rw [nEqElems]; exact Nat.zero_le _
  | x :: xs, loc, i, y :: ys => by
    have h1 := nEqVal_left env ho x (i :: loc) y
    have h2 := nEqElems_left env ho xs loc (i + 1) ys
    rw [nEqElems]
    simp only [counts]
    split
    · exact Nat.add_le_add h1 h2
    · exact Nat.le_trans h1 (Nat.le_add_right _ _)
theorem nEqMembers_left (env : Env) {ord : Ord} (ho : ord.Valid) : ∀ (kvs : List (Bytes × V)) (loc : List Nat) (i : Nat) (mvs : List (Bytes × V)),
    ((nEqMembers env ord loc i kvs mvs).map Prod.snd).sum ≤ countm kvs
  | [], loc, i, mvs => by rw [nEqMembers]; exact Nat.zero_le _
  | (k, v) :: r, loc, i, mvs => by
    rw [nEqMembers, List.map_cons, List.sum_cons]
    simp only [countm]
    exact Nat.add_le_add (nEqVal_left env ho v _ _) (nEqMembers_left env ho r loc (i + 1) mvs)
end

/-- What the names of one object find in another. -/
theorem found_le : ∀ (mvs : List (Bytes × V)) (ks : List Bytes), ks.Nodup →
    (ks.map fun k => count ((lookup mvs k).getD .null)).sum + mvs.length ≤ countm mvs + ks.length
  | [], ks, _ => by
    have : (ks.map fun k => count ((lookup [] k).getD .null)).sum = ks.length := by
      induction ks with
      | nil => rfl
      | cons k ks ih => rw [List.map_cons, List.sum_cons, ih (by rename_i h; exact (List.nodup_cons.1 h).2)]; simp [lookup, count]; omega
    rw [this]
    simp [countm]
  | (k0, v0) :: m, ks, h => by
    have same : ∀ ks : List Bytes, k0 ∉ ks → (ks.map fun k => count ((lookup ((k0, v0) :: m) k).getD .null)) = ks.map fun k => count ((lookup m k).getD .null) := by
      intro ks hk
      refine List.map_congr_left fun k hm => ?_
      rw [lookup, if_neg (by rintro rfl; exact hk hm)]
    by_cases hk : k0 ∈ ks
    · have hp := List.perm_cons_erase hk
      rw [((hp.map fun k => count ((lookup ((k0, v0) :: m) k).getD .null)).sum_eq), List.map_cons, List.sum_cons,
        same _ (h.not_mem_erase)]
      have ih := found_le m (ks.erase k0) (h.erase _)
      have hl := hp.length_eq
      simp only [List.length_cons, countm] at *
      rw [show lookup ((k0, v0) :: m) k0 = some v0 by simp [lookup], Option.getD_some]
      omega
    · rw [same ks hk]
      have ih := found_le m ks h
      have := count_pos v0
      simp only [List.length_cons, countm]
      omega

theorem Spec.KeysDistinct.elems {xs : List V} (h : KeysDistinct (.arr xs)) : ∀ x ∈ xs, KeysDistinct x := by
  cases h with
  | arr _ h => exact h
  | other _ h _ => exact absurd rfl (h xs)

theorem Spec.KeysDistinct.members {kvs : List (Bytes × V)} (h : KeysDistinct (.obj kvs)) : (kvs.map Prod.fst).Nodup ∧ ∀ kv ∈ kvs, KeysDistinct kv.2 := by
  cases h with
  | obj _ h1 h2 => exact ⟨h1, h2⟩
  | other _ _ h => exact absurd rfl (h kvs)

mutual
theorem nEqVal_right (env : Env) {ord : Ord} (ho : ord.Valid) : ∀ (a : V), KeysDistinct a → ∀ (loc : List Nat) (b : V), (nEqVal env ord loc a b).2 ≤ count b
  | .arr xs, hw, loc, b => by
    rcases nEqVal_cases env ho loc (.arr xs) b with h | ⟨_, ys, he, rfl, hl, h1, h⟩ | ⟨_, _, _, he, _⟩
    · rw [h]; exact count_pos _
    · cases he; rw [h]; have := nEqElems_right env ho xs hw.elems loc 0 ys; simp only [count]; omega
    · cases he
  | .obj kvs, hw, loc, b => by
    rcases nEqVal_cases env ho loc (.obj kvs) b with h | ⟨_, _, he, _⟩ | ⟨_, mvs, l, he, rfl, hl, h1, hp, h⟩
    · rw [h]; exact count_pos _
    · cases he
    · cases he
      have hw := hw.members
      rw [h]
      have h2 := nEqMembers_right env ho kvs hw.2 loc 0 mvs
      have h3 := (untilFalse_perm hp).2.1
      have h4 := found_le mvs _ hw.1
      rw [List.map_map, List.length_map] at h4
      simp only [count]
      have h5 : (kvs.map fun kv => count ((lookup mvs kv.1).getD .null)).sum = (kvs.map ((fun k => count ((lookup mvs k).getD .null)) ∘ Prod.fst)).sum := rfl
      omega
  | .null, _, loc, b => by rw [nEqVal_leaf env ord (by simp) (by simp)]; exact count_pos _
  | .bool _, _, loc, b => by rw [nEqVal_leaf env ord (by simp) (by simp)]; exact count_pos _
  | .gint _, _, loc, b => by rw [nEqVal_leaf env ord (by simp) (by simp)]; exact count_pos _
  | .int _, _, loc, b => by rw [nEqVal_leaf env ord (by simp) (by simp)]; exact count_pos _
  | .float _, _, loc, b => by rw [nEqVal_leaf env ord (by simp) (by simp)]; exact count_pos _
  | .str _, _, loc, b => by rw [nEqVal_leaf env ord (by simp) (by simp)]; exact count_pos _
  | .num _, _, loc, b => by rw [nEqVal_leaf env ord (by simp) (by simp)]; exact count_pos _
  | .name _, _, loc, b => by rw [nEqVal_leaf env ord (by simp) (by simp)]; exact count_pos _
  | .re _, _, loc, b => by rw [nEqVal_leaf env ord (by simp) (by simp)]; exact count_pos _
  | .slice _, _, loc, b => by rw [nEqVal_leaf env ord (by simp) (by simp)]; exact count_pos _
  | .err _, _, loc, b => by rw [nEqVal_leaf env ord (by simp) (by simp)]; exact count_pos _
theorem nEqElems_right (env : Env) {ord : Ord} (ho : ord.Valid) : ∀ (xs : List V), (∀ x ∈ xs, KeysDistinct x) → ∀ (loc : List Nat) (i : Nat) (ys : List V),
    (nEqElems env ord loc i xs ys).2 ≤ counts ys
  | [], _, loc, i, ys => by rw [nEqElems]; exact Nat.zero_le _
  | x :: xs, _, loc, i, [] => by rw [nEqElems]; exact Nat.zero_le _
  | x :: xs, hw, loc, i, y :: ys => by
    have hw := List.forall_mem_cons.1 hw
    have h1 := nEqVal_right env ho x hw.1 (i :: loc) y
    have h2 := nEqElems_right env ho xs hw.2 loc (i + 1) ys
    rw [nEqElems]
    simp only [counts]
    split
    · exact Nat.add_le_add h1 h2
    · exact Nat.le_trans h1 (Nat.le_add_right _ _)
theorem nEqMembers_right (env : Env) {ord : Ord} (ho : ord.Valid) : ∀ (kvs : List (Bytes × V)), (∀ kv ∈ kvs, KeysDistinct kv.2) → ∀ (loc : List Nat) (i : Nat) (mvs : List (Bytes × V)),
    ((nEqMembers env ord loc i kvs mvs).map Prod.snd).sum ≤ (kvs.map fun kv => count ((lookup mvs kv.1).getD .null)).sum
  | [], _, loc, i, mvs => by rw [nEqMembers]; exact Nat.zero_le _
  | (k, v) :: r, hw, loc, i, mvs => by
    have hw := List.forall_mem_cons.1 hw
    rw [nEqMembers, List.map_cons, List.sum_cons, List.map_cons, List.sum_cons]
    exact Nat.add_le_add (nEqVal_right env ho v hw.1 _ _) (nEqMembers_right env ho r hw.2 loc (i + 1) mvs)
end

theorem nSearch_same (env : Env) {ord : Ord} (ho : ord.Valid) (v : V) (f : Bool) : ∀ (xs : List V) (i : Nat),
    (nSearch env ord v f i xs).1 = searchJSON env xs v f
  | [], _ => rfl
  | x :: xs, i => by
    rw [nSearch, searchJSON, nEqVal_same env ho x]
    split
    · rfl
    · exact nSearch_same env ho v f xs (i + 1)

theorem nSearch_le (env : Env) {ord : Ord} (ho : ord.Valid) (v : V) (f : Bool) : ∀ (xs : List V) (i : Nat), (nSearch env ord v f i xs).2 ≤ counts xs
  | [], _ => Nat.zero_le _
  | x :: xs, i => by
    have h1 := nEqVal_left env ho x [i] v
    have h2 := nSearch_le env ho v f xs (i + 1)
    rw [nSearch]
    simp only [counts]
    split
    · exact Nat.le_trans h1 (Nat.le_add_right _ _)
    · exact Nat.add_le_add h1 h2

theorem nSearch_right (env : Env) {ord : Ord} (ho : ord.Valid) (v : V) (f : Bool) : ∀ (xs : List V) (i : Nat), (∀ x ∈ xs, KeysDistinct x) →
    (nSearch env ord v f i xs).2 ≤ xs.length * count v
  | [], _, _ => Nat.zero_le _
  | x :: xs, i, hw => by
    have hw := List.forall_mem_cons.1 hw
    have h1 := nEqVal_right env ho x hw.1 [i] v
    have h2 := nSearch_right env ho v f xs (i + 1) hw.2
    rw [nSearch, List.length_cons, Nat.succ_mul]
    split
    · exact Nat.le_trans h1 (Nat.le_add_left _ _)
    · simp only
      omega

mutual
theorem nEqVal_self (env : Env) {ord : Ord} (ho : ord.Valid) : ∀ (a : V), KeysDistinct a → eqVal env a a = true → ∀ loc, (nEqVal env ord loc a a).2 = count a
  | .arr xs, hw, he, loc => by
    have hw := hw.elems
    rw [eqVal.eq_def, if_neg (by simp)] at he
    rw [nEqVal.eq_def, if_neg (by simp)]
    dsimp only at he ⊢
    rw [if_pos (by simp)]
    simp only [count]
    rw [nEqElems_self env ho xs hw (by simpa using he) loc 0]
    omega
  | .obj kvs, hw, he, loc => by
    have hw := hw.members
    rw [eqVal.eq_def, if_neg (by simp)] at he
    rw [nEqVal.eq_def, if_neg (by simp)]
    dsimp only at he ⊢
    rw [if_pos (by simp)]
    simp only [count]
    have he : eqMembers env kvs kvs = true := by simpa using he
    rw [(untilFalse_perm (nEqMembers_perm ho loc kvs kvs)).2.2 (by rw [nEqMembers_same env ho]; exact he),
      nEqMembers_self env ho kvs kvs hw.2 (fun k v h => lookup_of_mem hw.1 h) he loc 0]
    omega
  | .null, _, _, loc => by rw [nEqVal_leaf env ord (by simp) (by simp)]; rfl
  | .bool _, _, _, loc => by rw [nEqVal_leaf env ord (by simp) (by simp)]; rfl
  | .gint _, _, _, loc => by rw [nEqVal_leaf env ord (by simp) (by simp)]; rfl
  | .int _, _, _, loc => by rw [nEqVal_leaf env ord (by simp) (by simp)]; rfl
  | .float _, _, _, loc => by rw [nEqVal_leaf env ord (by simp) (by simp)]; rfl
  | .str _, _, _, loc => by rw [nEqVal_leaf env ord (by simp) (by simp)]; rfl
  | .num _, _, _, loc => by rw [nEqVal_leaf env ord (by simp) (by simp)]; rfl
  | .name _, _, _, loc => by rw [nEqVal_leaf env ord (by simp) (by simp)]; rfl
  | .re _, _, _, loc => by rw [nEqVal_leaf env ord (by simp) (by simp)]; rfl
  | .slice _, _, _, loc => by rw [nEqVal_leaf env ord (by simp) (by simp)]; rfl
  | .err _, _, _, loc => by rw [nEqVal_leaf env ord (by simp) (by simp)]; rfl
theorem nEqElems_self (env : Env) {ord : Ord} (ho : ord.Valid) : ∀ (xs : List V), (∀ x ∈ xs, KeysDistinct x) → eqElems env xs xs = true → ∀ (loc : List Nat) (i : Nat),
    (nEqElems env ord loc i xs xs).2 = counts xs
  | [], _, _, loc, i => by rw [nEqElems]; rfl
  | x :: xs, hw, he, loc, i => by
    have hw := List.forall_mem_cons.1 hw
    rw [eqElems, Bool.and_eq_true] at he
    rw [nEqElems, if_pos (by rw [nEqVal_same env ho]; exact he.1)]
    simp only [counts]
    rw [nEqVal_self env ho x hw.1 he.1, nEqElems_self env ho xs hw.2 he.2]
theorem nEqMembers_self (env : Env) {ord : Ord} (ho : ord.Valid) : ∀ (r kvs : List (Bytes × V)), (∀ kv ∈ r, KeysDistinct kv.2) → (∀ k v, (k, v) ∈ r → lookup kvs k = some v) →
    eqMembers env r kvs = true → ∀ (loc : List Nat) (i : Nat), ((nEqMembers env ord loc i r kvs).map Prod.snd).sum = countm r
  | [], kvs, _, _, _, loc, i => by rw [nEqMembers]; rfl
  | (k, v) :: r, kvs, hw, hk, he, loc, i => by
    have hw := List.forall_mem_cons.1 hw
    rw [eqMembers, Bool.and_eq_true, hk k v (by simp)] at he
    rw [nEqMembers, List.map_cons, List.sum_cons, hk k v (by simp)]
    simp only [countm]
    rw [nEqMembers_self env ho r kvs hw.2 (fun k v h => hk k v (by simp [h])) he.2]
    have := nEqVal_self env ho v hw.1 he.1 (i :: loc)
    simp only [Option.getD_some]
    omega
end

theorem nSearch_stops (env : Env) {ord : Ord} (ho : ord.Valid) (v : V) (f : Bool) (x : V) (post : List V) (hx : eqVal env x v = true) :
    ∀ (pre : List V) (i : Nat), (nSearch env ord v f i (pre ++ x :: post)).2 ≤ counts pre + count x
  | [], i => by
    rw [List.nil_append, nSearch, if_pos (by rw [nEqVal_same env ho]; exact hx)]
    have := nEqVal_left env ho x [i] v
    simp only
    omega
  | y :: pre, i => by
    have h1 := nEqVal_left env ho y [i] v
    have h2 := nSearch_stops env ho v f x post hx pre (i + 1)
    rw [List.cons_append, nSearch]
    simp only [counts]
    split
    · simp only; omega
    · simp only; omega

theorem nEqElems_stops (env : Env) {ord : Ord} (ho : ord.Valid) (loc : List Nat) (x y : V) (post post' : List V) (hx : eqVal env x y = false) :
    ∀ (pre pre' : List V) (i : Nat), pre.length = pre'.length →
      (nEqElems env ord loc i (pre ++ x :: post) (pre' ++ y :: post')).2 ≤ counts pre + count x
  | [], [], i, _ => by
    rw [List.nil_append, List.nil_append, nEqElems, if_neg (by rw [nEqVal_same env ho, hx]; simp)]
    have := nEqVal_left env ho x (i :: loc) y
    simp only
    omega
  | z :: pre, w :: pre', i, hl => by
    have h1 := nEqVal_left env ho z (i :: loc) w
    have h2 := nEqElems_stops env ho loc x y post post' hx pre pre' (i + 1) (by simpa using hl)
    rw [List.cons_append, List.cons_append, nEqElems]
    simp only [counts]
    split
    · simp only; omega
    · simp only; omega

end JP
