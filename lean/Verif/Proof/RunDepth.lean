import Verif.Model.RunDepth
import Verif.Proof.Safe
import Verif.Proof.Select
import Verif.Proof.Ways
import Verif.Proof.Stack
/-!
Evaluation with limited stacks.
-/
namespace JP
open Spec

/-- The result is that of the other, or the stack is too small. -/
def Lim {α : Type} (x y : Res RErr α) : Prop := y = x ∨ y = .panic "stack overflow"

theorem Lim.refl {α : Type} (x : Res RErr α) : Lim x x := .inl rfl

theorem Lim.bind {α β : Type} {x y : Res RErr α} {f g : α → Res RErr β} (h : Lim x y) (hf : ∀ a, Lim (f a) (g a)) :
    Lim (x >>= f) (y >>= g) := by
  rcases h with rfl | rfl
  · cases y with
    | ok a => exact hf a
    | err => exact .inl rfl
    | panic => exact .inl rfl
    | stuck => exact .inl rfl
  · exact .inr rfl

theorem Lim.frame {α : Type} {x : Res RErr α} {k : Nat → Res RErr α} (h : ∀ d, Lim x (k d)) (d : Nat) : Lim x (dframe d k) := by
  cases d with
  | zero => exact .inr rfl
  | succ d => exact h d

/-! ### Comparison -/

theorem allOf_same : ∀ (bs : List Bool) (xs : List (Res RErr Bool)), Spec.All2 (fun b x => Lim (.ok b) x) bs xs →
    Lim (.ok (bs.all id)) (allOf xs)
  | [], [], _ => .inl rfl
  | b :: bs, x :: xs, .cons h hs => by
    show Lim _ (x >>= fun b => if b then allOf xs else .ok false)
    rcases h with rfl | rfl
    · show Lim _ (if b = true then allOf xs else .ok false)
      cases b with
      | true => simpa using allOf_same bs xs hs
      | false => exact .inl (by simp)
    · exact .inr rfl

theorem allOf_ok : ∀ (bs : List Bool), allOf (bs.map .ok) = .ok (bs.all id)
  | [] => rfl
  | b :: bs => by
    show (if b = true then allOf (bs.map .ok) else .ok false) = _
    cases b with
    | true => rw [if_pos rfl, allOf_ok bs]; simp
    | false => simp

/-- What the comparison of each member gives. -/
def eqEach (env : Env) (kvs mvs : List (Bytes × V)) : List Bool := kvs.map fun kv => eqVal env kv.2 ((lookup mvs kv.1).getD .null)

theorem eqEach_all (env : Env) (mvs : List (Bytes × V)) : ∀ kvs, (eqEach env kvs mvs).all id = eqMembers env kvs mvs
  | [] => by rw [eqMembers]; rfl
  | (k, v) :: r => by
    rw [eqMembers, ← eqEach_all env mvs r]
    rfl

theorem all_permute {p : List Nat} {bs : List Bool} (h : p.Perm (List.range bs.length)) : (permute p bs).all id = bs.all id :=
  (permute_perm h).all_eq

theorem eqVal_atom (env : Env) {a b : V} (h : typeOf a ≠ typeOf b) : eqVal env a b = eqMixed env a b := by
  rw [eqVal.eq_def, if_pos (by simpa using h)]

theorem dEqVal_leaf {env : Env} {ord : Ord} {a : V} (h1 : ∀ xs, a ≠ .arr xs) (h2 : ∀ kvs, a ≠ .obj kvs) (loc : List Nat) (b : V) (d : Nat) :
    dEqVal env ord loc a b (d + 1) = .ok (eqVal env a b) := by
  rw [dEqVal]
  show (if _ then _ else _) = _
  by_cases ht : typeOf a = typeOf b
  · rw [if_neg (by simpa using ht)]
    cases a <;> first | rfl | exact absurd rfl (h1 _) | exact absurd rfl (h2 _)
  · rw [if_pos (by simpa using ht), eqVal_atom env ht]

theorem dEqVal_plain {env : Env} {ord : Ord} {a : V} (h1 : ∀ xs, a ≠ .arr xs) (h2 : ∀ kvs, a ≠ .obj kvs) (loc : List Nat) (b : V) (d : Nat) :
    Lim (.ok (eqVal env a b)) (dEqVal env ord loc a b d) := by
  cases d with
  | zero => exact .inr (by rw [dEqVal]; rfl)
  | succ d => exact .inl (dEqVal_leaf h1 h2 loc b d)

mutual
theorem dEqVal_same (env : Env) {ord : Ord} (ho : ord.Valid) : ∀ (a : V) (loc : List Nat) (b : V) (d : Nat),
    Lim (.ok (eqVal env a b)) (dEqVal env ord loc a b d)
  | .arr xs, loc, b, d => by
    rw [dEqVal]
    refine Lim.frame (fun d => ?_) d
    by_cases ht : typeOf (.arr xs) = typeOf b
    · rw [eqVal.eq_def, if_neg (by simpa using ht), if_neg (by simpa using ht)]
      dsimp only
      cases b <;> try exact .inl rfl
      rename_i ys
      dsimp only
      by_cases hl : xs.length = ys.length
      · rw [if_pos (by simpa using hl)]
        rw [show (xs.length == ys.length) = true by simpa using hl, Bool.true_and]
        exact dEqElems_same env ho xs loc 0 ys d
      · rw [if_neg (by simpa using hl)]
        exact .inl (by simp [hl])
    · rw [eqVal_atom env ht, if_pos (by simpa using ht)]
      exact .inl rfl
  | .obj kvs, loc, b, d => by
    rw [dEqVal]
    refine Lim.frame (fun d => ?_) d
    by_cases ht : typeOf (.obj kvs) = typeOf b
    · rw [eqVal.eq_def, if_neg (by simpa using ht), if_neg (by simpa using ht)]
      dsimp only
      cases b <;> try exact .inl rfl
      rename_i mvs
      dsimp only
      by_cases hl : kvs.length = mvs.length
      · rw [if_pos (by simpa using hl)]
        have h1 := allOf_same _ _ ((dEqMembers_same env ho kvs loc 0 mvs d).permute (ord loc kvs.length))
        rw [all_permute (by simpa [eqEach] using ho loc kvs.length), eqEach_all] at h1
        rw [show (kvs.length == mvs.length) = true by simpa using hl, Bool.true_and]
        exact h1
      · rw [if_neg (by simpa using hl)]
        exact .inl (by simp [hl])
    · rw [eqVal_atom env ht, if_pos (by simpa using ht)]
      exact .inl rfl
  | .null, loc, b, d => dEqVal_plain (by simp) (by simp) loc b d
  | .bool _, loc, b, d => dEqVal_plain (by simp) (by simp) loc b d
  | .gint _, loc, b, d => dEqVal_plain (by simp) (by simp) loc b d
  | .int _, loc, b, d => dEqVal_plain (by simp) (by simp) loc b d
  | .float _, loc, b, d => dEqVal_plain (by simp) (by simp) loc b d
  | .str _, loc, b, d => dEqVal_plain (by simp) (by simp) loc b d
  | .num _, loc, b, d => dEqVal_plain (by simp) (by simp) loc b d
  | .name _, loc, b, d => dEqVal_plain (by simp) (by simp) loc b d
  | .re _, loc, b, d => dEqVal_plain (by simp) (by simp) loc b d
  | .slice _, loc, b, d => dEqVal_plain (by simp) (by simp) loc b d
  | .err _, loc, b, d => dEqVal_plain (by simp) (by simp) loc b d
theorem dEqElems_same (env : Env) {ord : Ord} (ho : ord.Valid) : ∀ (xs : List V) (loc : List Nat) (i : Nat) (ys : List V) (d : Nat),
    Lim (.ok (eqElems env xs ys)) (dEqElems env ord loc i xs ys d)
  | [], loc, i, ys, d => by rw [dEqElems, eqElems]; exact .inl rfl
  | x :: xs, loc, i, [], d => by rw [dEqElems, eqElems]; exact .inl rfl
  | x :: xs, loc, i, y :: ys, d => by
    rw [dEqElems, eqElems]
    rcases dEqVal_same env ho x (i :: loc) y d with h | h <;> rw [h]
    · show Lim _ (if eqVal env x y = true then _ else _)
      cases eqVal env x y with
      | true => simpa using dEqElems_same env ho xs loc (i + 1) ys d
      | false => exact .inl rfl
    · exact .inr rfl
theorem dEqMembers_same (env : Env) {ord : Ord} (ho : ord.Valid) : ∀ (kvs : List (Bytes × V)) (loc : List Nat) (i : Nat)
    (mvs : List (Bytes × V)) (d : Nat), Spec.All2 (fun b x => Lim (.ok b) x) (eqEach env kvs mvs) (dEqMembers env ord loc i kvs mvs d)
  | [], loc, i, mvs, d => by rw [dEqMembers]; exact .nil
  | (k, v) :: r, loc, i, mvs, d => by
    rw [dEqMembers]
    exact .cons (dEqVal_same env ho v (i :: loc) _ d) (dEqMembers_same env ho r loc (i + 1) mvs d)
end

mutual
theorem dEqVal_enough (env : Env) {ord : Ord} (ho : ord.Valid) : ∀ (a : V) (loc : List Nat) (b : V) (d : Nat),
    min (height a) (height b) < d → dEqVal env ord loc a b d = .ok (eqVal env a b)
  | _, _, _, 0, h => absurd h (by omega)
  | .arr xs, loc, b, d + 1, h => by
    by_cases ht : typeOf (.arr xs) = typeOf b
    · rw [dEqVal, eqVal.eq_def, if_neg (by simpa using ht)]
      show (if _ then _ else _) = _
      rw [if_neg (by simpa using ht)]
      dsimp only
      cases b <;> try rfl
      rename_i ys
      dsimp only
      by_cases hl : xs.length = ys.length
      · rw [if_pos (by simpa using hl), show (xs.length == ys.length) = true by simpa using hl, Bool.true_and]
        simp only [height] at h
        exact dEqElems_enough env ho xs loc 0 ys d (by omega)
      · rw [if_neg (by simpa using hl), show (xs.length == ys.length) = false by simpa using hl, Bool.false_and]
    · rw [dEqVal, eqVal_atom env ht]
      exact if_pos (by simpa using ht)
  | .obj kvs, loc, b, d + 1, h => by
    by_cases ht : typeOf (.obj kvs) = typeOf b
    · rw [dEqVal, eqVal.eq_def, if_neg (by simpa using ht)]
      show (if _ then _ else _) = _
      rw [if_neg (by simpa using ht)]
      dsimp only
      cases b <;> try rfl
      rename_i mvs
      dsimp only
      by_cases hl : kvs.length = mvs.length
      · rw [if_pos (by simpa using hl), show (kvs.length == mvs.length) = true by simpa using hl, Bool.true_and]
        simp only [height] at h
        rw [dEqMembers_enough env ho kvs loc 0 mvs d (by
          cases kvs with
          | nil => exact .inl (by simp [heightm])
          | cons kv kvs =>
            cases mvs with
            | nil => simp at hl
            | cons mv mvs =>
              by_cases h1 : heightm (kv :: kvs) ≤ d
              · exact .inl h1
              · have : 1 ≤ heightm (mv :: mvs) := by simp [heightm]
                exact .inr ⟨by omega, by omega⟩)]
        have : permute (ord loc kvs.length) ((eqEach env kvs mvs).map Res.ok) = (permute (ord loc kvs.length) (eqEach env kvs mvs)).map (Res.ok (ε := RErr)) := by
          unfold permute
          rw [List.map_filterMap]
          congr 1
          funext i
          simp
        rw [this, allOf_ok, all_permute (by simpa [eqEach] using ho loc kvs.length), eqEach_all]
      · rw [if_neg (by simpa using hl), show (kvs.length == mvs.length) = false by simpa using hl, Bool.false_and]
    · rw [dEqVal, eqVal_atom env ht]
      exact if_pos (by simpa using ht)
  | .null, loc, b, d + 1, _ => dEqVal_leaf (by simp) (by simp) loc b d
  | .bool _, loc, b, d + 1, _ => dEqVal_leaf (by simp) (by simp) loc b d
  | .gint _, loc, b, d + 1, _ => dEqVal_leaf (by simp) (by simp) loc b d
  | .int _, loc, b, d + 1, _ => dEqVal_leaf (by simp) (by simp) loc b d
  | .float _, loc, b, d + 1, _ => dEqVal_leaf (by simp) (by simp) loc b d
  | .str _, loc, b, d + 1, _ => dEqVal_leaf (by simp) (by simp) loc b d
  | .num _, loc, b, d + 1, _ => dEqVal_leaf (by simp) (by simp) loc b d
  | .name _, loc, b, d + 1, _ => dEqVal_leaf (by simp) (by simp) loc b d
  | .re _, loc, b, d + 1, _ => dEqVal_leaf (by simp) (by simp) loc b d
  | .slice _, loc, b, d + 1, _ => dEqVal_leaf (by simp) (by simp) loc b d
  | .err _, loc, b, d + 1, _ => dEqVal_leaf (by simp) (by simp) loc b d
theorem dEqElems_enough (env : Env) {ord : Ord} (ho : ord.Valid) : ∀ (xs : List V) (loc : List Nat) (i : Nat) (ys : List V) (d : Nat),
    min (heights xs) (heights ys) ≤ d → dEqElems env ord loc i xs ys d = .ok (eqElems env xs ys)
  | [], loc, i, ys, d, _ => by rw [dEqElems, eqElems]
  | x :: xs, loc, i, [], d, _ => by rw [dEqElems, eqElems]
  | x :: xs, loc, i, y :: ys, d, h => by
    simp only [heights] at h
    rw [dEqElems, eqElems, dEqVal_enough env ho x (i :: loc) y d (by omega)]
    show (if eqVal env x y = true then _ else _) = _
    cases eqVal env x y with
    | true => rw [if_pos rfl, dEqElems_enough env ho xs loc (i + 1) ys d (by omega), Bool.true_and]
    | false => rfl
theorem dEqMembers_enough (env : Env) {ord : Ord} (ho : ord.Valid) : ∀ (kvs : List (Bytes × V)) (loc : List Nat) (i : Nat)
    (mvs : List (Bytes × V)) (d : Nat), heightm kvs ≤ d ∨ heightm mvs ≤ d ∧ 0 < d →
      dEqMembers env ord loc i kvs mvs d = (eqEach env kvs mvs).map .ok
  | [], loc, i, mvs, d, _ => by rw [dEqMembers]; rfl
  | (k, v) :: r, loc, i, mvs, d, h => by
    have hv : min (height v) (height ((lookup mvs k).getD .null)) < d := by
      rcases h with h | ⟨h, h0⟩
      · simp only [heightm] at h; omega
      · cases hl : lookup mvs k with
        | none => simp [height]; omega
        | some w =>
          have := heightm_mem (lookup_mem hl)
          simp only [Option.getD_some]
          omega
    have hr : heightm r ≤ d ∨ heightm mvs ≤ d ∧ 0 < d := by
      refine h.imp_left fun h => ?_
      simp only [heightm] at h; omega
    rw [dEqMembers, dEqVal_enough env ho v (i :: loc) _ d hv, dEqMembers_enough env ho r loc (i + 1) mvs d hr]
    rfl
end

theorem dSearch_same (env : Env) {ord : Ord} (ho : ord.Valid) (d : Nat) (v : V) (f : Bool) : ∀ (xs : List V) (i : Nat),
    Lim (.ok (searchJSON env xs v f)) (dSearch env ord d v f i xs)
  | [], _ => .inl rfl
  | x :: xs, i => by
    unfold dSearch searchJSON
    rcases dEqVal_same env ho x [i] v d with h | h <;> rw [h]
    · show Lim _ (if eqVal env x v = true then _ else _)
      cases eqVal env x v with
      | true => exact .inl rfl
      | false => exact dSearch_same env ho d v f xs (i + 1)
    · exact .inr rfl

theorem dSearch_enough (env : Env) {ord : Ord} (ho : ord.Valid) (d : Nat) (v : V) (f : Bool) (h : height v < d) : ∀ (xs : List V) (i : Nat),
    dSearch env ord d v f i xs = .ok (searchJSON env xs v f)
  | [], _ => rfl
  | x :: xs, i => by
    unfold dSearch searchJSON
    rw [dEqVal_enough env ho x [i] v d (by omega)]
    show (if eqVal env x v = true then _ else _) = _
    cases eqVal env x v with
    | true => rfl
    | false => exact dSearch_enough env ho d v f h xs (i + 1)

theorem dContains_same (env : Env) {ord : Ord} (ho : ord.Valid) (d : Nat) (x : V) : ∀ (xs : List V) (i : Nat),
    Lim (.ok (containsElem env x xs)) (dContains env ord d x i xs)
  | [], _ => .inl rfl
  | y :: xs, i => by
    unfold dContains containsElem
    rcases dEqVal_same env ho y [i] x d with h | h <;> rw [h]
    · show Lim _ (if eqVal env y x = true then _ else _)
      cases eqVal env y x with
      | true => exact .inl rfl
      | false => exact dContains_same env ho d x xs (i + 1)
    · exact .inr rfl

theorem dContains_enough (env : Env) {ord : Ord} (ho : ord.Valid) (d : Nat) (x : V) (h : height x < d) : ∀ (xs : List V) (i : Nat),
    dContains env ord d x i xs = .ok (containsElem env x xs)
  | [], _ => rfl
  | y :: xs, i => by
    unfold dContains containsElem
    rw [dEqVal_enough env ho y [i] x d (by omega)]
    show (if eqVal env y x = true then _ else _) = _
    cases eqVal env y x with
    | true => rfl
    | false => exact dContains_enough env ho d x h xs (i + 1)

theorem call_contains (env : Env) (ord : Ord) (xs : List V) (x : V) :
    call env ord (b! "contains") [.arr xs, x] = .ok (.bool (containsElem env x xs)) := rfl

theorem dCall_same (env : Env) {ord pick : Ord} (ho : pick.Valid) (d : Nat) (id : Bytes) (args : List V) :
    Lim (call env ord id args) (dCall env ord pick d id args) := by
  unfold dCall
  split
  · rename_i h
    subst h
    split
    · rename_i xs x
      rw [call_contains]
      exact Lim.bind (dContains_same env ho d x xs 0) (fun _ => .inl rfl)
    · exact .inl rfl
  · exact .inl rfl

theorem dCall_enough (env : Env) {ord pick : Ord} (ho : pick.Valid) (d : Nat) (id : Bytes) (args : List V) (h : ∀ v ∈ args, height v < d) :
    dCall env ord pick d id args = call env ord id args := by
  unfold dCall
  split
  · rename_i h
    subst h
    split
    · rename_i xs x
      rw [call_contains, dContains_enough env ho d x (h _ (by simp)) xs 0]
      rfl
    · rfl
  · rfl

/-! ### Walking down -/

theorem gather_same : ∀ (ls : List (List V)) (xs : List (Res RErr (List V))), Spec.All2 (fun l x => Lim (.ok l) x) ls xs →
    Lim (.ok ls.flatten) (gather xs)
  | [], [], _ => .inl rfl
  | l :: ls, x :: xs, .cons h hs => by
    show Lim _ (x >>= fun vs => gather xs >>= fun ws => .ok (vs ++ ws))
    rcases h with rfl | rfl
    · rcases gather_same ls xs hs with h | h
      · exact .inl (by rw [h]; rfl)
      · exact .inr (by rw [h]; rfl)
    · exact .inr rfl

theorem gather_ok : ∀ (ls : List (List V)), gather (ls.map .ok) = .ok ls.flatten
  | [] => rfl
  | l :: ls => by
    show (gather (ls.map .ok) >>= fun ws => .ok (l ++ ws)) = _
    rw [gather_ok ls]
    rfl

mutual
theorem dWalkdown_same (ord : Ord) : ∀ (v : V) (loc : List Nat) (d : Nat), Lim (.ok (walkdown ord loc v)) (dWalkdown ord loc v d)
  | .arr xs, loc, d => by
    rw [dWalkdown, walkdown]
    exact Lim.frame (fun d => Lim.bind (x := .ok (walkElems ord loc 0 xs)) (f := fun r => .ok (.arr xs :: r)) (dWalkElems_same ord xs loc 0 d)
      (fun _ => .inl rfl)) d
  | .obj kvs, loc, d => by
    rw [dWalkdown, walkdown]
    refine Lim.frame (fun d => ?_) d
    have := gather_same _ _ ((dWalkMembers_same ord kvs loc 0 d).permute (ord loc kvs.length))
    exact Lim.bind (x := .ok _) (f := fun r => .ok (.obj kvs :: r)) this (fun _ => .inl rfl)
  | .null, loc, d => by rw [dWalkdown, walkdown] <;> first | exact Lim.frame (fun d => .inl rfl) d | simp
  | .bool _, loc, d => by rw [dWalkdown, walkdown] <;> first | exact Lim.frame (fun d => .inl rfl) d | simp
  | .gint _, loc, d => by rw [dWalkdown, walkdown] <;> first | exact Lim.frame (fun d => .inl rfl) d | simp
  | .int _, loc, d => by rw [dWalkdown, walkdown] <;> first | exact Lim.frame (fun d => .inl rfl) d | simp
  | .float _, loc, d => by rw [dWalkdown, walkdown] <;> first | exact Lim.frame (fun d => .inl rfl) d | simp
  | .str _, loc, d => by rw [dWalkdown, walkdown] <;> first | exact Lim.frame (fun d => .inl rfl) d | simp
  | .num _, loc, d => by rw [dWalkdown, walkdown] <;> first | exact Lim.frame (fun d => .inl rfl) d | simp
  | .name _, loc, d => by rw [dWalkdown, walkdown] <;> first | exact Lim.frame (fun d => .inl rfl) d | simp
  | .re _, loc, d => by rw [dWalkdown, walkdown] <;> first | exact Lim.frame (fun d => .inl rfl) d | simp
  | .slice _, loc, d => by rw [dWalkdown, walkdown] <;> first | exact Lim.frame (fun d => .inl rfl) d | simp
  | .err _, loc, d => by rw [dWalkdown, walkdown] <;> first | exact Lim.frame (fun d => .inl rfl) d | simp
theorem dWalkElems_same (ord : Ord) : ∀ (xs : List V) (loc : List Nat) (i d : Nat), Lim (.ok (walkElems ord loc i xs)) (dWalkElems ord loc i xs d)
  | [], loc, i, d => by rw [dWalkElems, walkElems]; exact .inl rfl
  | v :: r, loc, i, d => by
    rw [dWalkElems, walkElems]
    have h2 : ∀ vs, Lim (.ok (vs ++ walkElems ord loc (i + 1) r)) (dWalkElems ord loc (i + 1) r d >>= fun ws => .ok (vs ++ ws)) := fun vs =>
      Lim.bind (x := .ok _) (f := fun ws => .ok (vs ++ ws)) (dWalkElems_same ord r loc (i + 1) d) (fun _ => .inl rfl)
    by_cases hs : isStructure v = true
    · rw [if_pos hs, if_pos hs]
      exact Lim.bind (x := .ok _) (f := fun vs => .ok (vs ++ _)) (dWalkdown_same ord v (i :: loc) d) h2
    · rw [if_neg hs, if_neg hs]
      exact h2 []
theorem dWalkMembers_same (ord : Ord) : ∀ (kvs : List (Bytes × V)) (loc : List Nat) (i d : Nat),
    Spec.All2 (fun l x => Lim (.ok l) x) (walkMembers ord loc i kvs) (dWalkMembers ord loc i kvs d)
  | [], loc, i, d => by rw [dWalkMembers, walkMembers]; exact .nil
  | (_, v) :: r, loc, i, d => by
    rw [dWalkMembers, walkMembers]
    refine .cons ?_ (dWalkMembers_same ord r loc (i + 1) d)
    split
    · exact dWalkdown_same ord v (i :: loc) d
    · exact .inl rfl
end

mutual
theorem dWalkdown_enough (ord : Ord) : ∀ (v : V) (loc : List Nat) (d : Nat), height v < d → dWalkdown ord loc v d = .ok (walkdown ord loc v)
  | _, _, 0, h => absurd h (by omega)
  | .arr xs, loc, d + 1, h => by
    simp only [height] at h
    rw [dWalkdown, walkdown]
    show (dWalkElems ord loc 0 xs d >>= _) = _
    rw [dWalkElems_enough ord xs loc 0 d (by omega)]
    rfl
  | .obj kvs, loc, d + 1, h => by
    simp only [height] at h
    rw [dWalkdown, walkdown]
    show (gather (permute (ord loc kvs.length) (dWalkMembers ord loc 0 kvs d)) >>= _) = _
    have : permute (ord loc kvs.length) ((walkMembers ord loc 0 kvs).map Res.ok) =
        (permute (ord loc kvs.length) (walkMembers ord loc 0 kvs)).map (Res.ok (ε := RErr)) := by
      unfold permute
      rw [List.map_filterMap]
      congr 1
      funext i
      simp
    rw [dWalkMembers_enough ord kvs loc 0 d (by omega), this, gather_ok]
    rfl
  | .null, loc, d + 1, _ => by rw [dWalkdown, walkdown] <;> first | rfl | simp
  | .bool _, loc, d + 1, _ => by rw [dWalkdown, walkdown] <;> first | rfl | simp
  | .gint _, loc, d + 1, _ => by rw [dWalkdown, walkdown] <;> first | rfl | simp
  | .int _, loc, d + 1, _ => by rw [dWalkdown, walkdown] <;> first | rfl | simp
  | .float _, loc, d + 1, _ => by rw [dWalkdown, walkdown] <;> first | rfl | simp
  | .str _, loc, d + 1, _ => by rw [dWalkdown, walkdown] <;> first | rfl | simp
  | .num _, loc, d + 1, _ => by rw [dWalkdown, walkdown] <;> first | rfl | simp
  | .name _, loc, d + 1, _ => by rw [dWalkdown, walkdown] <;> first | rfl | simp
  | .re _, loc, d + 1, _ => by rw [dWalkdown, walkdown] <;> first | rfl | simp
  | .slice _, loc, d + 1, _ => by rw [dWalkdown, walkdown] <;> first | rfl | simp
  | .err _, loc, d + 1, _ => by rw [dWalkdown, walkdown] <;> first | rfl | simp
theorem dWalkElems_enough (ord : Ord) : ∀ (xs : List V) (loc : List Nat) (i d : Nat), heights xs ≤ d →
    dWalkElems ord loc i xs d = .ok (walkElems ord loc i xs)
  | [], loc, i, d, _ => by rw [dWalkElems, walkElems]
  | v :: r, loc, i, d, h => by
    simp only [heights] at h
    rw [dWalkElems, walkElems, dWalkElems_enough ord r loc (i + 1) d (by omega), dWalkdown_enough ord v (i :: loc) d (by omega)]
    split <;> rfl
theorem dWalkMembers_enough (ord : Ord) : ∀ (kvs : List (Bytes × V)) (loc : List Nat) (i d : Nat), heightm kvs ≤ d →
    dWalkMembers ord loc i kvs d = (walkMembers ord loc i kvs).map .ok
  | [], loc, i, d, _ => by rw [dWalkMembers, walkMembers]; rfl
  | (_, v) :: r, loc, i, d, h => by
    simp only [heightm] at h
    rw [dWalkMembers, walkMembers, dWalkMembers_enough ord r loc (i + 1) d (by omega), dWalkdown_enough ord v (i :: loc) d (by omega)]
    split <;> rfl
end

theorem dWalker_same (ord : Ord) (d : Nat) : ∀ (vs : List V) (k : Nat), Lim (.ok (walker ord k vs)) (dWalker ord d k vs)
  | [], _ => .inl rfl
  | v :: r, k => by
    unfold dWalker walker
    have h2 : ∀ vs, Lim (.ok (vs ++ walker ord (k + 1) r)) (dWalker ord d (k + 1) r >>= fun ws => .ok (vs ++ ws)) := fun vs =>
      Lim.bind (x := .ok _) (f := fun ws => .ok (vs ++ ws)) (dWalker_same ord d r (k + 1)) (fun _ => .inl rfl)
    dsimp only
    by_cases hs : isStructure v = true
    · rw [if_pos hs, if_pos hs]
      exact Lim.bind (x := .ok _) (f := fun vs => .ok (vs ++ _)) (dWalkdown_same ord v [k] d) h2
    · rw [if_neg hs, if_neg hs]
      exact h2 []

theorem dWalker_enough (ord : Ord) (d : Nat) : ∀ (vs : List V) (k : Nat), (∀ v ∈ vs, height v < d) → dWalker ord d k vs = .ok (walker ord k vs)
  | [], _, _ => rfl
  | v :: r, k, h => by
    unfold dWalker walker
    rw [dWalkdown_enough ord v [k] d (h v (by simp)), dWalker_enough ord d r (k + 1) (fun w hw => h w (by simp [hw]))]
    split <;> rfl

/-! ### Orders -/

theorem dExec_same {env : Env} {oracle : Oracle} {pick : Ord} (ho : pick.Valid) (d : Nat) (prog : Program) (root : V) (o : Order) (op : Op)
    (s : MState) : Lim (exec env oracle prog root o op s) (dExec d env oracle pick prog root o op s) := by
  have search : ∀ op, op = .in_ ∨ op = .nin → ∀ a b st, Lim
      ((opIn env op a b) >>= fun v => Res.ok { s with stack := v :: st })
      (if isNothing a || isNothing b then .ok { s with stack := .nothing :: st }
        else match b with
        | .arr xs => dSearch env pick d a (op == .in_) 0 xs >>= fun r => .ok { s with stack := .bool r :: st }
        | _ => .err (.inRight op b)) := by
    intro op hop a b st
    unfold opIn
    split
    · exact .inl rfl
    · cases b <;> try exact .inl rfl
      rename_i xs _
      exact Lim.bind (x := .ok _) (f := fun r => .ok { s with stack := .bool r :: st }) (dSearch_same env ho d a _ xs 0) (fun _ => .inl rfl)
  cases op <;> try exact .inl rfl
  case nest =>
    unfold dExec exec
    dsimp only
    cases o.pc with
    | none => exact .inl rfl
    | some epc => exact Lim.bind (x := .ok _) (dWalker_same (oracle s.tick) d s.out.elems 0) (fun _ => .inl rfl)
  case call =>
    unfold dExec exec
    dsimp only
    refine Lim.bind (.inl rfl) fun r => ?_
    obtain ⟨args, st⟩ := r
    dsimp only
    cases args with
    | nil => exact .inl rfl
    | cons v rest =>
      cases v <;> try exact .inl rfl
      exact Lim.bind (dCall_same env ho d _ rest) (fun _ => .inl rfl)
  case eq =>
    unfold dExec exec
    dsimp only
    rcases hs : s.stack with _ | ⟨b, _ | ⟨a, st⟩⟩
    · exact .inl rfl
    · exact .inl rfl
    · exact Lim.bind (x := .ok (eqVal env a b)) (f := fun r => .ok { s with stack := .bool r :: st }) (dEqVal_same env ho a [] b d) (fun _ => .inl rfl)
  case ne =>
    unfold dExec exec
    dsimp only
    rcases hs : s.stack with _ | ⟨b, _ | ⟨a, st⟩⟩
    · exact .inl rfl
    · exact .inl rfl
    · exact Lim.bind (x := .ok (eqVal env a b)) (f := fun r => .ok { s with stack := .bool (!r) :: st }) (dEqVal_same env ho a [] b d) (fun _ => .inl rfl)
  case in_ =>
    unfold dExec exec
    dsimp only
    rcases hs : s.stack with _ | ⟨b, _ | ⟨a, st⟩⟩
    · exact .inl rfl
    · exact .inl rfl
    · exact search .in_ (.inl rfl) a b st
  case nin =>
    unfold dExec exec
    dsimp only
    rcases hs : s.stack with _ | ⟨b, _ | ⟨a, st⟩⟩
    · exact .inl rfl
    · exact .inl rfl
    · exact search .nin (.inr rfl) a b st

theorem popN_mem {n : Int64} {stack : List V} {r : List V × List V} (h : popN n stack = .ok r) :
    (∀ v ∈ r.1, v ∈ stack) ∧ ∀ v ∈ r.2, v ∈ stack := by
  unfold popN at h
  split at h
  · cases h
  · split at h
    · cases h
    · cases h
      exact ⟨fun v hv => List.mem_of_mem_take (List.mem_reverse.1 hv), fun v hv => List.mem_of_mem_drop hv⟩

theorem dExec_enough {env : Env} {oracle : Oracle} {pick : Ord} (ho : pick.Valid) (d : Nat) (prog : Program) (root : V) (o : Order) (op : Op)
    (s : MState) (h1 : ∀ v ∈ s.stack, height v < d) (h2 : ∀ v ∈ s.out.elems, height v < d) :
    dExec d env oracle pick prog root o op s = exec env oracle prog root o op s := by
  have search : ∀ op, op = .in_ ∨ op = .nin → ∀ a b st, height a < d →
      (if isNothing a || isNothing b then .ok { s with stack := .nothing :: st }
        else match b with
        | .arr xs => dSearch env pick d a (op == .in_) 0 xs >>= fun r => .ok { s with stack := .bool r :: st }
        | _ => .err (.inRight op b)) =
      ((opIn env op a b) >>= fun v => Res.ok { s with stack := v :: st }) := by
    intro op hop a b st h
    unfold opIn
    split
    · rfl
    · cases b <;> try rfl
      rename_i xs _
      dsimp only
      rw [dSearch_enough env ho d a _ h xs 0]
      rfl
  cases op <;> try rfl
  case nest =>
    unfold dExec exec
    dsimp only
    cases o.pc with
    | none => rfl
    | some epc =>
      dsimp only
      rw [dWalker_enough (oracle s.tick) d s.out.elems 0 h2]
      rfl
  case call =>
    unfold dExec exec
    dsimp only
    cases hp : popN o.smallInt s.stack with
    | ok r =>
      obtain ⟨args, st⟩ := r
      have hm := (popN_mem hp).1
      show (match args with | .name id :: rest => _ | [] => _ | _ => _) = (match args with | .name id :: rest => _ | [] => _ | _ => _)
      cases args with
      | nil => rfl
      | cons v rest =>
        cases v <;> try rfl
        dsimp only
        rw [dCall_enough env ho d _ rest (fun w hw => h1 w (hm w (by simp [hw])))]
    | err => rfl
    | panic => rfl
    | stuck => rfl
  case eq =>
    unfold dExec exec
    dsimp only
    rcases hs : s.stack with _ | ⟨b, _ | ⟨a, st⟩⟩
    · rfl
    · rfl
    · dsimp only
      rw [dEqVal_enough env ho a [] b d (by have := h1 a (by simp [hs]); omega)]
      rfl
  case ne =>
    unfold dExec exec
    dsimp only
    rcases hs : s.stack with _ | ⟨b, _ | ⟨a, st⟩⟩
    · rfl
    · rfl
    · dsimp only
      rw [dEqVal_enough env ho a [] b d (by have := h1 a (by simp [hs]); omega)]
      rfl
  case in_ =>
    unfold dExec exec
    dsimp only
    rcases hs : s.stack with _ | ⟨b, _ | ⟨a, st⟩⟩
    · rfl
    · rfl
    · exact search .in_ (.inl rfl) a b st (h1 a (by simp [hs]))
  case nin =>
    unfold dExec exec
    dsimp only
    rcases hs : s.stack with _ | ⟨b, _ | ⟨a, st⟩⟩
    · rfl
    · rfl
    · exact search .nin (.inr rfl) a b st (h1 a (by simp [hs]))

end JP
