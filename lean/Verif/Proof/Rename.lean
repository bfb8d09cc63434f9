import Verif.Spec.Rename
import Verif.Proof.Shape
/-!
Evaluation of paths without expressions on documents whose members have other names.
-/
namespace JP
open Spec

section
variable {f : Bytes → Bytes}

@[simp] theorem renameElements_eq (xs : List V) : renameElements f xs = xs.map (rename f) := by
  induction xs with
  | nil => rfl
  | cons x xs ih => simp [renameElements, ih]

@[simp] theorem renameMembers_eq (ms : List (Bytes × V)) : renameMembers f ms = ms.map fun m => (f m.1, rename f m.2) := by
  induction ms with
  | nil => rfl
  | cons x xs ih => obtain ⟨k, v⟩ := x; simp [renameMembers, ih]

/-- Results that are renamed, and the same errors. -/
abbrev RenRes (f : Bytes → Bytes) : Res RErr GoSlice → Res RErr GoSlice → Prop := RelRes fun a b => b = a.map (List.map (rename f))

theorem ren_elems (s : GoSlice) : GoSlice.elems (s.map (List.map (rename f))) = s.elems.map (rename f) := by
  cases s <;> rfl

theorem ren_append (s : GoSlice) (v : V) : GoSlice.append (s.map (List.map (rename f))) (rename f v) = (s.append v).map (List.map (rename f)) := by
  cases s <;> simp [GoSlice.append, GoSlice.elems]

theorem ren_appendAll (s : GoSlice) (vs : List V) :
    GoSlice.appendAll (s.map (List.map (rename f))) (vs.map (rename f)) = (s.appendAll vs).map (List.map (rename f)) := by
  cases vs <;> cases s <;> simp [GoSlice.appendAll, GoSlice.elems]

private theorem permute_ren {α β : Type} (g : α → β) (p : List Nat) (xs : List α) : permute p (xs.map g) = (permute p xs).map g := by
  unfold permute
  rw [List.map_filterMap]
  congr 1
  funext i
  simp

theorem ren_isStructure (v : V) : isStructure (rename f v) = isStructure v := by cases v <;> simp [rename, isStructure]

theorem ren_children (ord : Ord) (loc : List Nat) (v : V) : children ord loc (rename f v) = (children ord loc v).map (rename f) := by
  cases v <;> simp [rename, children]
  rw [← permute_ren]
  simp [Function.comp_def]

mutual
theorem ren_walkdown (ord : Ord) : ∀ (loc : List Nat) (v : V), walkdown ord loc (rename f v) = (walkdown ord loc v).map (rename f)
  | loc, .arr xs => by simp only [rename, walkdown, renameElements_eq, List.map_cons, ren_walkElems ord loc 0 xs]
  | loc, .obj ms => by
    simp only [rename, walkdown, renameMembers_eq, List.map_cons, ren_walkMembers ord loc 0 ms, List.length_map, permute_ren, List.map_flatten]
  | loc, .null | loc, .bool _ | loc, .int _ | loc, .gint _ | loc, .float _ | loc, .str _ | loc, .num _ | loc, .name _ | loc, .re _
  | loc, .slice _ | loc, .err _ => by simp [rename, walkdown]
theorem ren_walkElems (ord : Ord) : ∀ (loc : List Nat) (i : Nat) (xs : List V),
    walkElems ord loc i (xs.map (rename f)) = (walkElems ord loc i xs).map (rename f)
  | _, _, [] => by simp [walkElems]
  | loc, i, x :: xs => by
    simp only [List.map_cons, walkElems, ren_isStructure, ren_walkElems ord loc (i + 1) xs, ren_walkdown ord (i :: loc) x, List.map_append]
    split <;> rfl
theorem ren_walkMembers (ord : Ord) : ∀ (loc : List Nat) (i : Nat) (ms : List (Bytes × V)),
    walkMembers ord loc i (ms.map fun m => (f m.1, rename f m.2)) = (walkMembers ord loc i ms).map (List.map (rename f))
  | _, _, [] => by simp [walkMembers]
  | loc, i, (k, x) :: ms => by
    simp only [List.map_cons, walkMembers, ren_isStructure, ren_walkMembers ord loc (i + 1) ms, ren_walkdown ord (i :: loc) x]
    split <;> rfl
end

theorem ren_walker (ord : Ord) (xs : List V) : ∀ k, walker ord k (xs.map (rename f)) = (walker ord k xs).map (rename f) := by
  induction xs with
  | nil => intro k; rfl
  | cons x xs ih =>
    intro k
    simp only [List.map_cons, walker, ren_isStructure, ih, ren_walkdown, List.map_append]
    split <;> rfl

theorem ren_lookup (hf : Function.Injective f) (k : Bytes) (ms : List (Bytes × V)) :
    lookup (ms.map fun m => (f m.1, rename f m.2)) (f k) = (lookup ms k).map (rename f) := by
  induction ms with
  | nil => rfl
  | cons m ms ih =>
    obtain ⟨k', v⟩ := m
    simp only [List.map_cons, lookup, hf.eq_iff, ih]
    split <;> rfl

theorem ren_goIndex (xs : List V) (i : Int64) : goIndex (xs.map (rename f)) i = (goIndex xs i).map (rename f) := by
  unfold goIndex
  split
  · rfl
  · simp

theorem ren_sliceLoop (up : Bool) (xs : List V) (stop stride : Int64) : ∀ n i acc,
    RelRes (fun a b => b = a.map (rename f)) (sliceLoop up xs stop stride n i acc) (sliceLoop up (xs.map (rename f)) stop stride n i (acc.map (rename f))) := by
  intro n
  induction n with
  | zero => intro i acc; exact .stuck
  | succ n ih =>
    intro i acc
    unfold sliceLoop
    rw [ren_goIndex]
    by_cases h : (if up = true then i < stop else i > stop)
    · rw [if_pos h, if_pos h]
      cases goIndex xs i with
      | none => exact .panic _
      | some v => simpa using ih (i + stride) (acc ++ [v])
    · rw [if_neg h, if_neg h]; exact .ok rfl

theorem ren_sliceVals (xs : List V) (sl : Slice) :
    RelRes (fun a b => b = a.map (rename f)) (sliceVals xs sl) (sliceVals (xs.map (rename f)) sl) := by
  unfold sliceVals
  rw [List.length_map]
  obtain ⟨start, stop, stride⟩ := sliceEval sl (Int64.ofNat xs.length)
  simp only
  by_cases h1 : stride > 0
  · rw [if_pos h1, if_pos h1]; exact ren_sliceLoop true xs _ _ _ _ []
  rw [if_neg h1, if_neg h1]
  by_cases h2 : stride < 0
  · rw [if_pos h2, if_pos h2]; exact ren_sliceLoop false xs _ _ _ _ []
  · rw [if_neg h2, if_neg h2]; exact .ok rfl

/-- Selectors under other names. -/
inductive RenKey (f : Bytes → Bytes) : V → V → Prop
  | name (s) : RenKey f (.name s) (.name (f s))
  | str (s) : RenKey f (.str s) (.str (f s))
  | int (n : Int64) : f (intToBytes n.toInt) = intToBytes n.toInt → RenKey f (.int n) (.int n)
  | slice (s) : RenKey f (.slice s) (.slice s)

theorem RenKey.nothing {k k' : V} (h : RenKey f k k') : isNothing k = false ∧ isNothing k' = false := by cases h <;> exact ⟨rfl, rfl⟩

theorem ren_valsByKey (env : Env) (hf : Function.Injective f) {k k' : V} (hk : RenKey f k k') (vals : GoSlice) (v : V) (neg : Bool) :
    RenRes f (valsByKey env vals v k neg) (valsByKey env (vals.map (List.map (rename f))) (rename f v) k' neg) := by
  have hs : ∀ {a b : V} (ha : ∀ s, a ≠ .slice s) (hb : ∀ s, b ≠ .slice s), isInt a = isInt b → (isInt a = true → a = b) →
      mapKey env b = f (mapKey env a) → RenRes f (valsByKey env vals v a neg) (valsByKey env (vals.map (List.map (rename f))) (rename f v) b neg) := by
    intro a b ha hb hi he hm
    rw [valsByKey_byKey env _ _ _ _ ha, valsByKey_byKey env _ _ _ _ hb]
    refine .ok ?_
    cases v with
    | arr xs =>
      simp only [rename, renameElements_eq, byKey, ← hi]
      split
      · next h =>
        rw [← he h]
        simp only [valByKey, List.length_map]
        generalize (if (neg && decide (cvi env a < 0)) = true then cvi env a + Int64.ofNat xs.length else cvi env a) = n
        split
        · rw [ren_goIndex]
          cases goIndex xs n <;> simp [ren_append]
        · rfl
      · rfl
    | obj ms =>
      simp only [rename, renameMembers_eq, byKey, valByKey, hm]
      rw [ren_lookup hf]
      cases lookup ms (mapKey env a) <;> simp [ren_append]
    | _ => simp [rename, byKey]
  cases hk with
  | name s => exact hs (by simp) (by simp) rfl (by simp [isInt]) rfl
  | str s => exact hs (by simp) (by simp) rfl (by simp [isInt]) rfl
  | int n h => exact hs (by simp) (by simp) rfl (fun _ => rfl) (by simp only [mapKey, sprint]; exact h.symm)
  | slice s =>
    cases v with
    | arr xs =>
      simp only [rename, renameElements_eq, valsByKey]
      exact (ren_sliceVals xs s).bind fun a b hx => .ok (by rw [hx, ren_appendAll])
    | _ => simp only [rename, valsByKey]; exact .ok rfl

theorem ren_unionByKeys (env : Env) (hf : Function.Injective f) {ks ks' : List V} (hk : List.Forall₂ (RenKey f) ks ks') (v : V) :
    ∀ (vals : GoSlice), RenRes f (unionByKeys env vals v ks) (unionByKeys env (vals.map (List.map (rename f))) (rename f v) ks') := by
  induction hk with
  | nil => intro vals; exact .ok rfl
  | cons h _ ih =>
    intro vals
    unfold unionByKeys
    rw [h.nothing.1, h.nothing.2]
    simp only [Bool.false_eq_true, if_false]
    refine (ren_valsByKey env hf h vals v true).bind ?_
    rintro a _ rfl
    exact ih a

theorem ren_applySelection {g g' : Nat → V → GoSlice → Res RErr GoSlice}
    (hg : ∀ k v acc, RenRes f (g k v acc) (g' k (rename f v) (acc.map (List.map (rename f))))) (xs : List V) :
    ∀ k acc, RenRes f (applySelection g k acc xs) (applySelection g' k (acc.map (List.map (rename f))) (xs.map (rename f))) := by
  induction xs with
  | nil => intro k acc; exact .ok rfl
  | cons x xs ih =>
    intro k acc
    refine (hg k x acc).bind ?_
    rintro a _ rfl
    exact ih _ a

/-! ### Evaluation -/

theorem ren_evalVals (env : Env) (oracle : Oracle) (root root' dot dot' : V) : ∀ (as : List Val) (t : Nat), (∀ e, Val.expr e ∉ as) →
    (∀ n : Int64, Val.int n ∈ as → f (intToBytes n.toInt) = intToBytes n.toInt) →
    ∃ vs vs', evalVals env oracle root dot as t = .ok (vs, t) ∧ evalVals env oracle root' dot' (as.map (renameVal f)) t = .ok (vs', t) ∧
      List.Forall₂ (RenKey f) vs vs'
  | [], t, _, _ => ⟨[], [], rfl, rfl, .nil⟩
  | a :: r, t, h, hn => by
    obtain ⟨vs, vs', h1, h2, h3⟩ := ren_evalVals env oracle root root' dot dot' r t (fun e he => h e (by simp [he])) (fun n hm => hn n (by simp [hm]))
    have key : ∃ v v', evalVal env oracle root dot a t = .ok (v, t) ∧ evalVal env oracle root' dot' (renameVal f a) t = .ok (v', t) ∧ RenKey f v v' := by
      cases a with
      | name s => exact ⟨_, _, rfl, rfl, .name s⟩
      | str s => exact ⟨_, _, rfl, rfl, .str s⟩
      | int n => exact ⟨_, _, rfl, rfl, .int n (hn n (by simp))⟩
      | slice s => exact ⟨_, _, rfl, rfl, .slice s⟩
      | expr e => exact absurd (by simp) (h e)
    obtain ⟨v, v', k1, k2, k3⟩ := key
    refine ⟨v :: vs, v' :: vs', ?_, ?_, .cons k3 h3⟩
    · simp only [evalVals, k1]
      show (evalVals env oracle root dot r t >>= _) = _
      rw [h1]; rfl
    · simp only [List.map_cons, evalVals, k2]
      show (evalVals env oracle root' dot' (r.map (renameVal f)) t >>= _) = _
      rw [h2]; rfl

theorem ren_visit (env : Env) (hf : Function.Injective f) (ord : Ord) {op : Op} (h1 : op ≠ .filter) (h2 : op ≠ .nestFilter)
    {ks ks' : List V} (hk : List.Forall₂ (RenKey f) ks ks') (v : V) (out : GoSlice) :
    RenRes f (visit env ord op v ks out) (visit env ord op (rename f v) ks' (out.map (List.map (rename f)))) := by
  have hm : ∀ {k k' : V} (n : Bool), RenKey f k k' → RenRes f (if isNothing k then .ok out else valsByKey env out v k n)
      (if isNothing k' then .ok (out.map (List.map (rename f))) else valsByKey env (out.map (List.map (rename f))) (rename f v) k' n) := by
    intro k k' n h
    rw [h.nothing.1, h.nothing.2]
    simp only [Bool.false_eq_true, if_false]
    exact ren_valsByKey env hf h out v n
  unfold visit
  cases op with
  | nestUnion => exact ren_unionByKeys env hf hk v out
  | filter => exact absurd rfl h1
  | nestFilter => exact absurd rfl h2
  | nestMember =>
    cases hk with
    | nil => exact .stuck
    | cons h hr => cases hr with
      | nil => exact hm false h
      | cons => exact .stuck
  | nestSelect =>
    cases hk with
    | nil => exact .stuck
    | cons h hr => cases hr with
      | nil => exact hm true h
      | cons => exact .stuck
  | nestWild =>
    cases hk with
    | nil => refine .ok ?_; rw [ren_children, ren_appendAll]
    | cons => exact .stuck
  | _ => exact .stuck

/-- Result sets and counts. -/
abbrev RenSt (f : Bytes → Bytes) (a b : GoSlice × Nat) : Prop := b = (a.1.map (List.map (rename f)), a.2)

/-- A step under other names. -/
abbrev renStep (f : Bytes → Bytes) (s : Step) : Step := ⟨s.op, s.args.map (renameVal f)⟩

theorem ren_visits (env : Env) (hf : Function.Injective f) (oracle : Oracle) (root root' : V) (s : Step) (h1 : s.op ≠ .filter) (h2 : s.op ≠ .nestFilter)
    (he : ∀ e, Val.expr e ∉ s.args) (hn : ∀ n : Int64, Val.int n ∈ s.args → f (intToBytes n.toInt) = intToBytes n.toInt) (xs : List V) :
    ∀ (out : GoSlice) (t : Nat), RelRes (RenSt f) (visits env oracle root s xs out t)
      (visits env oracle root' (renStep f s) (xs.map (rename f)) (out.map (List.map (rename f))) t) := by
  induction xs with
  | nil => intro out t; exact .ok rfl
  | cons x xs ih =>
    intro out t
    obtain ⟨vs, vs', e1, e2, hk⟩ := ren_evalVals (f := f) env oracle root root' x (rename f x) s.args t he hn
    simp only [List.map_cons, visits, e1, e2]
    refine (ren_visit env hf (oracle t) h1 h2 hk x out).bind ?_
    rintro a _ rfl
    exact ih a _

theorem ren_loop (env : Env) (hf : Function.Injective f) (oracle : Oracle) (root root' : V) (s : Step) (h1 : s.op ≠ .filter) (h2 : s.op ≠ .nestFilter)
    (he : ∀ e, Val.expr e ∉ s.args) (hn : ∀ n : Int64, Val.int n ∈ s.args → f (intToBytes n.toInt) = intToBytes n.toInt) (xs : List V)
    (out : GoSlice) (t : Nat) : RelRes (RenSt f) (loop env oracle root s xs out t)
      (loop env oracle root' (renStep f s) (xs.map (rename f)) (out.map (List.map (rename f))) t) := by
  have hv : visited (xs.map (rename f)) = (visited xs).map (rename f) := by
    cases xs <;> simp [visited, rename]
  unfold loop
  rw [ren_elems, List.isEmpty_map, hv]
  split
  · exact .ok rfl
  · exact ren_visits env hf oracle root root' s h1 h2 he hn _ (some []) t

theorem ren_evalStep (env : Env) (hf : Function.Injective f) (oracle : Oracle) (root root' : V) (s : Step) (h1 : s.op ≠ .filter) (h2 : s.op ≠ .nestFilter)
    (he : ∀ e, Val.expr e ∉ s.args) (hn : ∀ n : Int64, Val.int n ∈ s.args → f (intToBytes n.toInt) = intToBytes n.toInt)
    (out : GoSlice) (t : Nat) : RelRes (RenSt f) (evalStep env oracle root s out t)
      (evalStep env oracle root' (renStep f s) (out.map (List.map (rename f))) t) := by
  have hl := fun xs => ren_loop env hf oracle root root' s h1 h2 he hn xs out (t + 1)
  have hsel : ∀ (b : Bool) (vs vs' : List V), List.Forall₂ (RenKey f) vs vs' → RelRes (RenSt f) (match vs with
      | [sel] =>
        if isNothing sel then (.ok (some [], t) : Res RErr (GoSlice × Nat))
        else do
          let out ← applySelection (fun _ el acc => valsByKey env acc el sel b) 0 (some []) out.elems
          .ok (out, t)
      | _ => .stuck) (match vs' with
      | [sel] =>
        if isNothing sel then .ok (some [], t)
        else do
          let out ← applySelection (fun _ el acc => valsByKey env acc el sel b) 0 (some []) (out.elems.map (rename f))
          .ok (out, t)
      | _ => .stuck) := by
    intro b vs vs' hk
    cases hk with
    | nil => exact .stuck
    | cons h hr => cases hr with
      | cons => exact .stuck
      | nil =>
      simp only [h.nothing.1, h.nothing.2, Bool.false_eq_true, if_false]
      refine (ren_applySelection (fun k v acc => ren_valsByKey env hf h acc v b) out.elems 0 (some [])).bind ?_
      rintro a _ rfl
      exact .ok rfl
  obtain ⟨vs, vs', e1, e2, hk⟩ := ren_evalVals (f := f) env oracle root root' .null .null s.args t he hn
  unfold evalStep
  simp only [ren_elems, ren_walker]
  split
  · refine (ren_applySelection (f := f) (g' := fun k el acc => .ok (acc.appendAll (children (oracle t) [k] el)))
      (fun k v acc => .ok (by rw [ren_children, ren_appendAll])) out.elems 0 (some [])).bind ?_
    rintro a _ rfl
    exact .ok rfl
  · rw [e1, e2]
    exact hsel _ _ _ hk
  · rw [e1, e2]
    exact hsel _ _ _ hk
  · rw [e1, e2]
    refine (ren_applySelection (fun k v acc => ren_unionByKeys env hf hk v acc) out.elems 0 (some [])).bind ?_
    rintro a _ rfl
    exact .ok rfl
  · exact absurd (by assumption) h1
  all_goals first | exact hl _ | exact .stuck

theorem ren_evalSteps (env : Env) (hf : Function.Injective f) (oracle : Oracle) (root root' : V) : ∀ (q : Path), Renames f q → ∀ (out : GoSlice) (t : Nat),
    RelRes (RenSt f) (evalSteps env oracle root q out t) (evalSteps env oracle root' (renamePath f q) (out.map (List.map (rename f))) t)
  | [], _, _, _ => .ok rfl
  | s :: r, hb, out, t => by
    obtain ⟨h1, h2, h3, h4⟩ := hb s (by simp)
    refine (ren_evalStep env hf oracle root root' s h1 h2 h3 h4 out t).bind ?_
    rintro ⟨a, t1⟩ _ rfl
    exact ren_evalSteps env hf oracle root root' r (fun s hs => hb s (by simp [hs])) a t1

theorem ren_evalPath (env : Env) (hf : Function.Injective f) (oracle : Oracle) (root : V) (q : Path) (hb : Renames f q) :
    RenRes f (evalPath env oracle root q) (evalPath env oracle (rename f root) (renamePath f q)) := by
  unfold evalPath
  refine (ren_evalSteps env hf oracle root (rename f root) q hb (some [root]) 0).bind ?_
  rintro ⟨a, t1⟩ _ rfl
  refine .ok ?_
  simp [ren_elems]

end
end JP
