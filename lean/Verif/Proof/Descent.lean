import Mathlib.Data.List.Perm.Basic
import Verif.Spec.Descent
import Verif.Proof.Select
/-! The arrays and objects of a value, up to order. -/
namespace JP
open Spec

theorem pres_eq : ∀ xs : List V, pres xs = xs.flatMap pre
  | [] => by simp [pres]
  | v :: r => by simp [pres, pres_eq r]

theorem prem_eq : ∀ kvs : List (Bytes × V), prem kvs = (kvs.map Prod.snd).flatMap pre
  | [] => by simp [prem]
  | (_, v) :: r => by simp [prem, prem_eq r]

theorem pre_eq (v : V) : pre v = if isStructure v then v :: (kidsOf v).flatMap pre else [] := by
  cases v <;> simp [pre, isStructure, kidsOf, pres_eq, prem_eq]

theorem children_kids {v : V} {l : List V} (h : Children v l) : l.Perm (kidsOf v) := by
  cases h with
  | arr xs => exact .refl _
  | obj kvs l h => exact h
  | other v h => cases v <;> first | exact .refl _ | cases h

theorem allChildren_kids {vs : List V} {parts : List (List V)} (h : All2 Children vs parts) : parts.flatten.Perm (vs.flatMap kidsOf) := by
  induction h with
  | nil => exact .refl _
  | cons h _ ih => simp only [List.flatten_cons, List.flatMap_cons]; exact (children_kids h).append ih

mutual
theorem preOrder_pre : ∀ {v : V} {l : List V}, PreOrder v l → l.Perm (pre v)
  | _, _, .arr xs l h => by
    simp only [pre, pres_eq]
    exact (preOrders_pre h).cons _
  | _, _, .obj kvs vs l hp h => by
    simp only [pre, prem_eq]
    exact ((preOrders_pre h).trans (hp.flatMap_right _)).cons _
  | _, _, .other v h => by cases v <;> first | exact .refl _ | cases h
theorem preOrders_pre : ∀ {vs l : List V}, PreOrders vs l → l.Perm (vs.flatMap pre)
  | _, _, .nil => .refl _
  | _, _, .cons v vs l l' h h' => by
    simp only [List.flatMap_cons]
    exact (preOrder_pre h).append (preOrders_pre h')
end

/-- The values themselves, and those below their children. -/
theorem pre_split (vs : List V) : (vs.flatMap pre).Perm (vs.filter isStructure ++ (vs.flatMap kidsOf).flatMap pre) := by
  induction vs with
  | nil => exact .refl _
  | cons v r ih =>
    simp only [List.flatMap_cons, List.flatMap_append, List.filter_cons]
    rw [pre_eq v]
    by_cases h : isStructure v = true
    · simp only [h, if_true, List.cons_append]
      refine List.Perm.cons _ ?_
      refine (ih.append_left _).trans ?_
      rw [← List.append_assoc, ← List.append_assoc]
      exact List.perm_append_comm.append_right _
    · simp only [h, Bool.false_eq_true, if_false, List.nil_append]
      have : kidsOf v = [] := by cases v <;> first | rfl | exact absurd rfl h
      rw [this]
      exact ih

mutual
theorem pre_below : ∀ v : V, (pre v).Perm ((if isStructure v then [v] else []) ++ ((pre v).flatMap kidsOf).filter isStructure)
  | .arr xs => by
    simp only [pre, isStructure, if_true, List.flatMap_cons, kidsOf, List.filter_append, List.singleton_append]
    exact (pres_below xs).cons _
  | .obj kvs => by
    simp only [pre, isStructure, if_true, List.flatMap_cons, kidsOf, List.filter_append, List.singleton_append]
    exact (prem_below kvs).cons _
  | .null | .bool _ | .int _ | .gint _ | .float _ | .str _ | .name _ | .re _ | .slice _ | .err _ | .num _ => by
    simp [pre, isStructure]
theorem pres_below : ∀ xs : List V, (pres xs).Perm (xs.filter isStructure ++ ((pres xs).flatMap kidsOf).filter isStructure)
  | [] => by simp [pres]
  | v :: r => by
    simp only [pres, List.flatMap_append, List.filter_append]
    refine ((pre_below v).append (pres_below r)).trans ?_
    rw [List.filter_cons]
    have : (if isStructure v = true then v :: List.filter isStructure r else List.filter isStructure r) =
      (if isStructure v = true then [v] else []) ++ r.filter isStructure := by split <;> rfl
    rw [this]
    simp only [List.append_assoc]
    refine List.Perm.append_left _ ?_
    rw [← List.append_assoc, ← List.append_assoc]
    exact List.perm_append_comm.append_right _
theorem prem_below : ∀ kvs : List (Bytes × V), (prem kvs).Perm ((kvs.map Prod.snd).filter isStructure ++ ((prem kvs).flatMap kidsOf).filter isStructure)
  | [] => by simp [prem]
  | (_, v) :: r => by
    simp only [prem, List.flatMap_append, List.filter_append, List.map_cons]
    refine ((pre_below v).append (prem_below r)).trans ?_
    rw [List.filter_cons]
    have : (if isStructure v = true then v :: List.filter isStructure (r.map Prod.snd) else List.filter isStructure (r.map Prod.snd)) =
      (if isStructure v = true then [v] else []) ++ (r.map Prod.snd).filter isStructure := by split <;> rfl
    rw [this]
    simp only [List.append_assoc]
    refine List.Perm.append_left _ ?_
    rw [← List.append_assoc, ← List.append_assoc]
    exact List.perm_append_comm.append_right _
end

theorem flatMap_structures {f : V → List V} (hf : ∀ v, isStructure v = false → f v = []) (vs : List V) :
    (vs.filter isStructure).flatMap f = vs.flatMap f := by
  induction vs with
  | nil => rfl
  | cons v r ih =>
    rw [List.filter_cons]
    by_cases h : isStructure v = true
    · rw [if_pos h]; simp [ih]
    · rw [if_neg h]; simp [ih, hf v (by simpa using h)]

/-- The first law, for the values visited. -/
theorem descent_split {f : V → List V} (hf : ∀ v, isStructure v = false → f v = []) {vs l vs' l' : List V} (h : PreOrders vs l)
    (hk : vs'.Perm (vs.flatMap kidsOf)) (h' : PreOrders vs' l') : (l.flatMap f).Perm (vs.flatMap f ++ l'.flatMap f) := by
  have h1 := (preOrders_pre h).flatMap_right f
  have h2 := (preOrders_pre h').trans (hk.flatMap_right pre)
  have h3 := (pre_split vs).flatMap_right f
  refine h1.trans (h3.trans ?_)
  rw [List.flatMap_append, flatMap_structures hf]
  exact (h2.symm.flatMap_right f).append_left _

/-- The second. -/
theorem descent_below {f : V → List V} (hf : ∀ v, isStructure v = false → f v = []) {vs l : List V} (h : PreOrders vs l) {ds l' : List V}
    (h' : PreOrders vs l') (hd : ds.Perm (l'.flatMap kidsOf)) : (l.flatMap f).Perm (vs.flatMap f ++ ds.flatMap f) := by
  have h1 := (preOrders_pre h).flatMap_right f
  have h2 := hd.trans ((preOrders_pre h').flatMap_right kidsOf)
  refine h1.trans ?_
  have h3 := pres_below vs
  rw [pres_eq] at h3
  refine (h3.flatMap_right f).trans ?_
  rw [List.flatMap_append, flatMap_structures hf, flatMap_structures hf]
  exact (h2.symm.flatMap_right f).append_left _

theorem memberOf_none {s : Bytes} {v : V} (h : isStructure v = false) : memberOf s v = [] := by
  cases v <;> first | rfl | cases h

theorem indexOf_none {neg : Bool} {n : Int} {v : V} (h : isStructure v = false) : indexOf neg n v = [] := by
  cases v <;> first | rfl | cases h

theorem kidsOf_none {v : V} (h : isStructure v = false) : kidsOf v = [] := by
  cases v <;> first | rfl | cases h

end JP
