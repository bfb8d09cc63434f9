import Verif.Spec.Slim
import Verif.Proof.Perm
/-! Lemmas about documents whose objects have at most one member: maps are iterated over in only one way. -/
namespace JP
open Spec

theorem Spec.Slim.desc {v w : V} (h : Slim v) (hd : Desc v w) : Slim w := fun s hs => h s (hd.trans hs)

theorem Spec.Slim.atom {v : V} (ha : ∀ xs, v ≠ .arr xs) (ho : ∀ kvs, v ≠ .obj kvs) : Slim v :=
  fun s h => absurd (desc_atom h ha ho).symm (ho s)

theorem Spec.Slim.arr {xs : List V} (h : ∀ x ∈ xs, Slim x) : Slim (.arr xs) := by
  intro s hs
  rcases desc_arr hs with hs | ⟨x, h1, h2⟩
  · cases hs
  · exact h x h1 s h2

theorem desc_obj {kvs : List (Bytes × V)} {w : V} (h : Desc (.obj kvs) w) : w = .obj kvs ∨ ∃ k x, (k, x) ∈ kvs ∧ Desc x w := by
  induction h with
  | root => exact .inl rfl
  | @elem ys y _ hx ih =>
    rcases ih with ih | ⟨k, x, hx1, hx2⟩
    · cases ih
    · exact .inr ⟨k, x, hx1, .elem hx2 hx⟩
  | @member kvs k y _ hx ih =>
    rcases ih with ih | ⟨k', x, hx1, hx2⟩
    · cases ih; exact .inr ⟨k, y, hx, .root⟩
    · exact .inr ⟨k', x, hx1, .member hx2 hx⟩

theorem Spec.Slim.null : Slim (.null) := .atom (by simp) (by simp)
theorem Spec.Slim.bool (b : Bool) : Slim (.bool b) := .atom (by simp) (by simp)
theorem Spec.Slim.int (b : Int64) : Slim (.int b) := .atom (by simp) (by simp)
theorem Spec.Slim.gint (b : Int64) : Slim (.gint b) := .atom (by simp) (by simp)
theorem Spec.Slim.float (b : F64) : Slim (.float b) := .atom (by simp) (by simp)
theorem Spec.Slim.str (b : Bytes) : Slim (.str b) := .atom (by simp) (by simp)
theorem Spec.Slim.num (b : Bytes) : Slim (.num b) := .atom (by simp) (by simp)
theorem Spec.Slim.name (b : Bytes) : Slim (.name b) := .atom (by simp) (by simp)
theorem Spec.Slim.re (b : Bytes) : Slim (.re b) := .atom (by simp) (by simp)
theorem Spec.Slim.err (b : Err) : Slim (.err b) := .atom (by simp) (by simp)
theorem Spec.Slim.nothing : Slim .nothing := .err _

theorem opDot_slim {env : Env} {a b v : V} (ha : Slim a) (h : opDot env a b = .ok v) : Slim v := by
  unfold opDot at h
  split at h
  · cases h; exact .nothing
  · split at h
    · split at h
      · split at h <;> cases h <;> first | exact .int _ | exact .nothing
      · split at h
        · next key _ _ kvs _ =>
          cases h
          cases hv : valByKey env (.obj kvs) (.name key) false with
          | none => exact .nothing
          | some w =>
            rcases valByKey_desc hv with rfl | hd
            · exact .null
            · exact ha.desc hd
        · cases h; exact .nothing
    · cases h

theorem opIndex_slim {env : Env} {a b : V} (ha : Slim a) : Slim (opIndex env a b) := by
  unfold opIndex
  split
  · exact .nothing
  · split
    · next xs _ =>
      dsimp only
      generalize (if cvi env b < 0 then cvi env b + Int64.ofNat xs.length else cvi env b) = sel
      split
      · exact .nothing
      · cases hv : goIndex xs sel with
        | none => exact .nothing
        | some w => exact ha.desc (.elem .root (goIndex_mem hv))
    · next kvs _ =>
      cases hv : valByKey env (.obj kvs) b true with
      | none => exact .nothing
      | some w =>
        rcases valByKey_desc hv with rfl | hd
        · exact .null
        · exact ha.desc hd
    · exact .nothing

theorem arith_slim {env : Env} {a b : V} {f g} : Slim (arith env a b f g) := by
  unfold arith
  repeat' split
  all_goals first | exact .nothing | exact .float _ | exact .int _

theorem divide_slim {env : Env} {a b : V} {f g} : Slim (divide env a b f g) := by
  unfold divide
  dsimp only
  repeat' split
  all_goals first | exact .nothing | exact .float _ | exact .int _

theorem relation_slim {env : Env} {a b : V} {f g h} : Slim (relation env a b f g h) := by
  unfold relation
  repeat' split
  all_goals first | exact .nothing | exact .bool _

theorem opMatch_slim {env : Env} {a b v : V} (h : opMatch env a b = .ok v) : Slim v := by
  unfold opMatch at h
  dsimp only at h
  split at h
  · cases h; exact .nothing
  · repeat' split at h
    all_goals first | (cases h; done) | (cases h; exact .bool _)

theorem opIn_slim {env : Env} {op : Op} {a b v : V} (h : opIn env op a b = .ok v) : Slim v := by
  unfold opIn at h
  split at h
  · cases h; exact .nothing
  · split at h
    · cases h; exact .bool _
    · cases h

theorem binop_slim {env : Env} {op : Op} {a b v : V} (hop : op ≠ .slice) (ha : Slim a) (hb : Slim b)
    (h : binop env op a b = some (.ok v)) : Slim v := by
  cases op <;> simp only [binop, Option.some.injEq, reduceCtorEq, Res.ok.injEq] at h
  case dot => exact opDot_slim ha h
  case index => subst h; exact opIndex_slim ha
  case slice => exact absurd rfl hop
  case or =>
    subst h; unfold opOr
    split
    · exact .nothing
    · split
      · exact ha
      · exact hb
  case and =>
    subst h; unfold opAnd
    split
    · exact ha
    · exact hb
  case match_ => exact opMatch_slim h
  case in_ => exact opIn_slim h
  case nin => exact opIn_slim h
  all_goals
    subst h
    first | exact arith_slim | exact divide_slim | exact relation_slim | exact .bool _

theorem unop_slim {env : Env} {op : Op} {a v : V} (ha : Slim a)
    (h : unop env op a = some v) : Slim v := by
  cases op <;> simp only [unop, Option.some.injEq, reduceCtorEq] at h
  case exp =>
    subst h; unfold opExp
    split
    · exact .nothing
    · split
      · exact ha
      · exact .int _
  case neg =>
    subst h; unfold opNeg
    split
    · exact .nothing
    · split
      · exact .float _
      · exact .int _
  case not => subst h; exact .bool _

theorem arithLoop_slim {env : Env} {f} : ∀ {i : Nat} {r : F64} {xs : List V}, Slim (arithLoop env f i r xs)
  | _, _, [] => by unfold arithLoop; exact .float _
  | _, _, v :: r => by unfold arithLoop; split; exact .err _; exact arithLoop_slim

theorem arithArrayOp_slim {env : Env} {f} {xs : List V} : Slim (arithArrayOp env xs f) := by
  unfold arithArrayOp; split; exact .null; exact arithLoop_slim

theorem stringLoop_slim {f} {xs : List V} : ∀ {i : Nat} {r : Bytes}, Slim (stringLoop f i r xs) := by
  induction xs with
  | nil => intro i r; unfold stringLoop; exact .str _
  | cons v xs ih =>
    intro i r
    cases v <;> unfold stringLoop <;> first | exact ih | exact .err _

theorem stringArrayOp_slim {f} {xs : List V} : Slim (stringArrayOp xs f) := by
  unfold stringArrayOp; split; exact .null; exact stringLoop_slim

theorem minMax_slim {env : Env} {f g} {xs : List V} : Slim (minMaxArray env xs f g) := by
  unfold minMaxArray
  split
  all_goals first | exact .null | exact arithArrayOp_slim | exact stringArrayOp_slim | exact .err _

theorem avgLoop_slim {env : Env} {n : Nat} : ∀ {s : F64} {xs : List V}, Slim (avgLoop env n s xs)
  | _, [] => by unfold avgLoop; exact .float _
  | _, v :: r => by unfold avgLoop; split; exact .err _; exact avgLoop_slim

theorem fnApply_slim {env : Env} {ord : Ord} {f : Fn} {args : List V} {v : V}
    (h : f.apply env ord args = .ok v) : Slim v := by
  unfold Fn.apply at h
  repeat' split at h
  all_goals
    first
      | (cases h; done)
      | skip
  all_goals
    injection h with h
    subst h
    repeat' split
    all_goals first
      | exact .null | exact .int _ | exact .gint _ | exact .float _ | exact .str _ | exact .bool _ | exact .err _
      | exact .nothing | exact avgLoop_slim | exact minMax_slim | exact arithArrayOp_slim
      | skip
  · refine .arr (fun x hx => ?_)
    have := mem_permute hx
    rw [List.mem_map] at this
    obtain ⟨_, _, rfl⟩ := this
    exact .str _
  · refine .arr (fun x hx => ?_)
    rw [List.mem_map] at hx
    obtain ⟨_, _, rfl⟩ := hx
    exact .str _

theorem call_slim {env : Env} {ord : Ord} {id : Bytes} {args : List V} {v : V}
    (h : call env ord id args = .ok v) : Slim v := by
  unfold call at h
  repeat' split at h
  all_goals first | (cases h; done) | exact fnApply_slim h

theorem applyOp_slim {env : Env} {ord : Ord} {op : Op} {vs : List V} {v : V} (hop : op ≠ .slice)
    (hvs : ∀ w ∈ vs, Slim w) (h : applyOp env ord op vs = .ok v) : Slim v := by
  unfold applyOp at h
  split at h
  · cases h; exact .arr hvs
  · split at h
    · exact call_slim h
    · cases h
  · split at h
    · split at h
      · next hu => cases h; exact unop_slim (hvs _ (by simp)) hu
      · cases h
    · split at h
      · next hb => rw [h] at hb; exact binop_slim hop (hvs _ (by simp)) (hvs _ (by simp)) hb
      · cases h
    · cases h

/-! ### The same values in every run -/

theorem ord_slim {o o' : Ord} (ho : o.Valid) (ho' : o'.Valid) (loc : List Nat) {n : Nat} (h : n ≤ 1) : o loc n = o' loc n := by
  have h1 := ho loc n
  have h2 := ho' loc n
  match n, h with
  | 0, _ => rw [List.perm_nil.1 h1, List.perm_nil.1 h2]
  | 1, _ => rw [List.perm_singleton.1 h1, List.perm_singleton.1 h2]

theorem children_slim {o o' : Ord} (ho : o.Valid) (ho' : o'.Valid) (loc : List Nat) {v : V} (h : Slim v) : children o loc v = children o' loc v := by
  cases v <;> try rfl
  next kvs => simp only [children, ord_slim ho ho' loc (h kvs .root)]

theorem stepping_slim {o o' : Ord} (ho : o.Valid) (ho' : o'.Valid) : ∀ (vs : List V) (k : Nat), (∀ v ∈ vs, Slim v) → stepping o k vs = stepping o' k vs
  | [], _, _ => rfl
  | v :: r, k, h => by
    unfold stepping
    rw [children_slim ho ho' [k] (h v (by simp)), stepping_slim ho ho' r (k + 1) (fun w hw => h w (by simp [hw]))]

section
variable {o o' : Ord} (ho : o.Valid) (ho' : o'.Valid)
include ho ho'

mutual
theorem walkdown_slim : ∀ (v : V) (loc : List Nat), Slim v → walkdown o loc v = walkdown o' loc v
  | .arr xs, loc, h => by
    unfold walkdown
    rw [walkElems_slim xs loc 0 (fun x hx => h.desc (.elem .root hx))]
  | .obj kvs, loc, h => by
    unfold walkdown
    rw [walkMembers_slim kvs loc 0 (fun x hx => h.desc (.member (k := x.1) .root hx)), ord_slim ho ho' loc (h kvs .root)]
  | .null, _, _ | .bool _, _, _ | .int _, _, _ | .gint _, _, _ | .float _, _, _ | .str _, _, _ | .num _, _, _ | .name _, _, _
  | .re _, _, _ | .err _, _, _ | .slice _, _, _ => rfl
theorem walkElems_slim : ∀ (xs : List V) (loc : List Nat) (i : Nat), (∀ x ∈ xs, Slim x) → walkElems o loc i xs = walkElems o' loc i xs
  | [], _, _, _ => rfl
  | v :: r, loc, i, h => by
    unfold walkElems
    rw [walkdown_slim v (i :: loc) (h v (by simp)), walkElems_slim r loc (i + 1) (fun w hw => h w (by simp [hw]))]
theorem walkMembers_slim : ∀ (kvs : List (Bytes × V)) (loc : List Nat) (i : Nat), (∀ x ∈ kvs, Slim x.2) →
    walkMembers o loc i kvs = walkMembers o' loc i kvs
  | [], _, _, _ => rfl
  | (k, v) :: r, loc, i, h => by
    unfold walkMembers
    rw [walkdown_slim v (i :: loc) (h (k, v) (by simp)), walkMembers_slim r loc (i + 1) (fun w hw => h w (by simp [hw]))]
end

theorem walker_slim : ∀ (vs : List V) (k : Nat), (∀ v ∈ vs, Slim v) → walker o k vs = walker o' k vs
  | [], _, _ => rfl
  | v :: r, k, h => by
    unfold walker
    rw [walkdown_slim ho ho' v [k] (h v (by simp)), walker_slim r (k + 1) (fun w hw => h w (by simp [hw]))]

theorem call_ord_slim {env : Env} {id : Bytes} {args : List V} (h : ∀ v ∈ args, Slim v) : call env o id args = call env o' id args := by
  unfold call
  split
  · rfl
  · next f hf =>
    have : f.apply env o args = f.apply env o' args := by
      by_cases hk : f = .keys
      · subst hk
        rcases args with _ | ⟨a, r⟩
        · rfl
        · cases a <;> try (cases r <;> rfl)
          next kvs => simp only [Fn.apply, ord_slim ho ho' _ (h (.obj kvs) (by simp) kvs .root)]
      · exact fn_noKeys hk args
    rw [this]

theorem applyOp_ord_slim {env : Env} {op : Op} {vs : List V} (h : ∀ v ∈ vs, Slim v) : applyOp env o op vs = applyOp env o' op vs := by
  by_cases hop : op = .call
  · subst hop
    unfold applyOp
    dsimp only
    split
    · exact call_ord_slim ho ho' (fun v hv => h v (by simp [hv]))
    · rfl
  · exact applyOp_noKeys hop vs

end

section
variable {env : Env} {oracle oracle' : Oracle} {root : V} (hv : oracle.Valid) (hv' : oracle'.Valid) (hr : Slim root)
include hv hv' hr

mutual
theorem evalExpr_same_slim {dot : V} (hd : Slim dot) : ∀ (e : Expr), e.WF → ∀ t, evalExpr env oracle root dot e t = evalExpr env oracle' root dot e t ∧
    ∀ v t', evalExpr env oracle root dot e t = .ok (v, t') → Slim v
  | .int _, _, t => by unfold evalExpr; exact ⟨rfl, fun v t' h => by cases h; exact .int _⟩
  | .float _, _, t => by unfold evalExpr; exact ⟨rfl, fun v t' h => by cases h; exact .float _⟩
  | .str _, _, t => by unfold evalExpr; exact ⟨rfl, fun v t' h => by cases h; exact .str _⟩
  | .bool _, _, t => by unfold evalExpr; exact ⟨rfl, fun v t' h => by cases h; exact .bool _⟩
  | .null, _, t => by unfold evalExpr; exact ⟨rfl, fun v t' h => by cases h; exact .null⟩
  | .name _, _, t => by unfold evalExpr; exact ⟨rfl, fun v t' h => by cases h; exact .name _⟩
  | .re _, _, t => by unfold evalExpr; exact ⟨rfl, fun v t' h => by cases h; exact .re _⟩
  | .current, _, t => by unfold evalExpr; exact ⟨rfl, fun v t' h => by cases h; exact hd⟩
  | .root, _, t => by unfold evalExpr; exact ⟨rfl, fun v t' h => by cases h; exact hr⟩
  | .inner op kids, hw, t => by
    have hwk : Exprs.WF kids := by
      cases hw with
      | unary _ e _ h => exact .cons _ _ h .nil
      | binary _ a b _ h1 h2 => exact .cons _ _ h1 (.cons _ _ h2 .nil)
      | dot a s h => exact .cons _ _ h (.cons _ _ (.name _) .nil)
      | array _ h => exact h
      | call _ _ h => exact .cons _ _ (.name _) h
    have hop : op ≠ .slice := by rintro rfl; cases hw <;> simp_all [Op.isUnary, Op.isBinary]
    obtain ⟨h1, h2⟩ := evalKids_same_slim hd kids hwk t
    unfold evalExpr
    rw [← h1]
    cases hk : evalKids env oracle root dot kids t with
    | ok x =>
      obtain ⟨vs, t1⟩ := x
      have hs := h2 vs t1 hk
      simp only [Res.bind_ok]
      rw [applyOp_ord_slim (hv t1) (hv' t1) hs]
      refine ⟨rfl, ?_⟩
      intro v t' h
      obtain ⟨w, h3, h4⟩ := bind_eq_ok h
      cases h4
      exact applyOp_slim hop hs h3
    | err e => exact ⟨rfl, fun v t' h => by cases h⟩
    | panic m => exact ⟨rfl, fun v t' h => by cases h⟩
    | stuck => exact ⟨rfl, fun v t' h => by cases h⟩
theorem evalKids_same_slim {dot : V} (hd : Slim dot) : ∀ (es : List Expr), Exprs.WF es → ∀ t,
    evalKids env oracle root dot es t = evalKids env oracle' root dot es t ∧
    ∀ vs t', evalKids env oracle root dot es t = .ok (vs, t') → ∀ v ∈ vs, Slim v
  | [], _, t => by unfold evalKids; exact ⟨rfl, fun v t' h => by cases h; simp⟩
  | e :: r, hw, t => by
    cases hw with
    | cons _ _ w1 w2 =>
    obtain ⟨h1, h2⟩ := evalExpr_same_slim hd e w1 t
    unfold evalKids
    rw [← h1]
    cases he : evalExpr env oracle root dot e t with
    | ok x =>
      obtain ⟨v, t1⟩ := x
      obtain ⟨h3, h4⟩ := evalKids_same_slim hd r w2 t1
      simp only [Res.bind_ok]
      rw [← h3]
      refine ⟨rfl, ?_⟩
      intro vs t' h
      obtain ⟨⟨ws, t2⟩, h5, h6⟩ := bind_eq_ok h
      cases h6
      intro w hw
      rcases List.mem_cons.1 hw with rfl | hw
      · exact h2 _ t1 he
      · exact h4 ws _ h5 w hw
    | err e => exact ⟨rfl, fun v t' h => by cases h⟩
    | panic m => exact ⟨rfl, fun v t' h => by cases h⟩
    | stuck => exact ⟨rfl, fun v t' h => by cases h⟩
end

theorem evalVals_same_slim {dot : V} (hd : Slim dot) : ∀ (as : List Val), (∀ v ∈ as, v.WF) → ∀ t,
    evalVals env oracle root dot as t = evalVals env oracle' root dot as t
  | [], _, t => rfl
  | a :: r, hw, t => by
    have ha : evalVal env oracle root dot a t = evalVal env oracle' root dot a t := by
      cases a with
      | expr e => exact (evalExpr_same_slim hv hv' hr hd e (hw (.expr e) (by simp)) t).1
      | _ => rfl
    unfold evalVals
    rw [ha]
    congr 1
    funext ⟨v, t⟩
    dsimp only
    rw [evalVals_same_slim hd r (fun v hv => hw v (by simp [hv]))]

theorem visits_same_slim {s : Step} (hw : s.WF) : ∀ (l : List V) (acc : GoSlice) (t : Nat), (∀ v ∈ l, Slim v) →
    visits env oracle root s l acc t = visits env oracle' root s l acc t
  | [], acc, t, _ => rfl
  | v :: r, acc, t, h => by
    unfold visits
    rw [evalVals_same_slim hv hv' hr (h v (by simp)) s.args hw.1 t]
    congr 1
    funext ⟨vs, t⟩
    dsimp only
    have : visit env (oracle t) s.op v vs acc = visit env (oracle' t) s.op v vs acc := by
      unfold visit
      split <;> try rfl
      rw [children_slim (hv t) (hv' t) [0] (h v (by simp))]
    rw [this]
    congr 1
    funext y
    exact visits_same_slim hw r y _ (fun w hw => h w (by simp [hw]))

theorem loop_same_slim {s : Step} (hw : s.WF) (l : List V) (out : GoSlice) (t : Nat) (h : ∀ v ∈ l, Slim v) :
    loop env oracle root s l out t = loop env oracle' root s l out t := by
  unfold loop
  split
  · rfl
  · refine visits_same_slim hv hv' hr hw _ _ _ ?_
    unfold visited
    split
    · intro v hv; simp at hv; subst hv; exact .null
    · exact h

theorem evalStep_same_slim {s : Step} (hw : s.WF) (out : GoSlice) (t : Nat) (h : ∀ v ∈ out.elems, Slim v) :
    evalStep env oracle root s out t = evalStep env oracle' root s out t := by
  have step : ∀ v ∈ stepping (oracle t) 0 out.elems, Slim v := by
    intro v hv
    obtain ⟨src, h1, h2⟩ := mem_stepping hv
    exact (h src h1).desc (h2.desc .root)
  have walk : ∀ v ∈ walker (oracle t) 0 out.elems, Slim v := by
    intro v hv
    obtain ⟨src, h1, _, h2⟩ := mem_walker hv
    exact (h src h1).desc h2
  have wild : ∀ (vs : List V) (k : Nat) (acc : GoSlice), (∀ v ∈ vs, Slim v) →
      applySelection (fun k el acc => Res.ok (acc.appendAll (children (oracle t) [k] el))) k acc vs =
      (applySelection (fun k el acc => .ok (acc.appendAll (children (oracle' t) [k] el))) k acc vs : Res RErr GoSlice) := by
    intro vs
    induction vs with
    | nil => intros; rfl
    | cons v r ih =>
      intro k acc h
      unfold applySelection
      rw [children_slim (hv t) (hv' t) [k] (h v (by simp))]
      congr 1
      funext acc
      exact ih _ _ (fun w hw => h w (by simp [hw]))
  unfold evalStep
  split
  · rw [wild _ _ _ h]
  · rw [evalVals_same_slim hv hv' hr .null s.args hw.1 t]
  · rw [evalVals_same_slim hv hv' hr .null s.args hw.1 t]
  · rw [evalVals_same_slim hv hv' hr .null s.args hw.1 t]
  · rw [loop_same_slim hv hv' hr hw _ _ _ step, stepping_slim (hv t) (hv' t) _ _ h]
  all_goals first | rfl | rw [loop_same_slim hv hv' hr hw _ _ _ walk, walker_slim (hv t) (hv' t) _ _ h]

theorem evalSteps_same_slim (hwf : root.WF) : ∀ (p : Path), p.WF → ∀ (out : GoSlice) (t : Nat), (∀ v ∈ out.elems, From True root v) →
    evalSteps env oracle root p out t = evalSteps env oracle' root p out t
  | [], _, _, _, _ => rfl
  | s :: r, hw, out, t, h => by
    unfold evalSteps
    rw [← evalStep_same_slim hv hv' hr (hw s (by simp)) out t (by
      intro v hv
      rcases h v hv with h | ⟨_, rfl⟩
      · exact hr.desc h
      · exact .null)]
    have hs := evalStep_safe (S := False) (N := True) (env := env) (oracle := oracle) (hw s (by simp)) (fun _ => trivial) hwf.noSlice
      hwf.lens (fun _ _ h => h.elim) out t h
    cases he : evalStep env oracle root s out t with
    | ok x =>
      obtain ⟨o, t1⟩ := x
      rw [he] at hs
      exact evalSteps_same_slim hwf r (fun x hx => hw x (by simp [hx])) o t1 hs
    | _ => rfl

end

theorem evalSteps_straight {env : Env} {oracle oracle' : Oracle} {root : V} : ∀ (p : Path), p.WF → p.NoKeys → Straight p → ∀ (out : GoSlice) (t t' : Nat),
    dropT (evalSteps env oracle root p out t) = dropT (evalSteps env oracle' root p out t')
  | [], _, _, _, _, _, _ => rfl
  | s :: r, hw, hk, hs, out, t, t' => by
    unfold evalSteps
    refine dropT_bind ?_ (fun o t1 t1' _ _ => evalSteps_straight r (fun x hx => hw x (by simp [hx])) (fun x hx => hk x (by simp [hx]))
      (fun x hx => hs x (by simp [hx])) o t1 t1')
    have hv := evalVals_noKeys (env := env) (oracle := oracle) (oracle' := oracle') (root := root) (dot := .null) s.args (hw s (by simp)).1
      (hk s (by simp)) t t'
    unfold evalStep
    rcases hs s (by simp) with hop | hop | hop <;> rw [hop] <;> dsimp only
    all_goals
      refine dropT_bind hv ?_
      intro vs t1 t1' _ _
      dsimp only
    · split <;> try rfl
      split
      · rfl
      · cases applySelection (fun _ el acc => valsByKey env acc el _ _) 0 (some []) out.elems <;> rfl
    · split <;> try rfl
      split
      · rfl
      · cases applySelection (fun _ el acc => valsByKey env acc el _ _) 0 (some []) out.elems <;> rfl
    · cases applySelection (fun _ el acc => unionByKeys env acc el vs) 0 (some []) out.elems <;> rfl

end JP
