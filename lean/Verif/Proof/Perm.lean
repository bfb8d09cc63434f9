import Verif.Proof.Compose
/-! Independence from the order of map iteration. -/
namespace JP
open Spec

/-! ### Expressions without `keys` -/

/-- Forget the clock. -/
def dropT {α : Type} (r : Res RErr (α × Nat)) : Res RErr α := r >>= fun x => .ok x.1

theorem dropT_bind {α β : Type} {r r' : Res RErr (α × Nat)} {f f' : α × Nat → Res RErr (β × Nat)}
    (h : dropT r = dropT r') (hf : ∀ a t t', r = .ok (a, t) → r' = .ok (a, t') → dropT (f (a, t)) = dropT (f' (a, t'))) :
    dropT (r >>= f) = dropT (r' >>= f') := by
  match r, r', h with
  | .ok (a, t), .ok (a', t'), h =>
    cases h
    exact hf a t t' rfl rfl
  | .err e, .err e', h => cases h; rfl
  | .panic m, .panic m', h => cases h; rfl
  | .stuck, .stuck, h => rfl
  | .ok _, .err _, h | .ok _, .panic _, h | .ok _, .stuck, h => cases h
  | .err _, .ok _, h | .err _, .panic _, h | .err _, .stuck, h => cases h
  | .panic _, .ok _, h | .panic _, .err _, h | .panic _, .stuck, h => cases h
  | .stuck, .ok _, h | .stuck, .err _, h | .stuck, .panic _, h => cases h

theorem fn_noKeys {env : Env} {o o' : Ord} {f : Fn} (hf : f ≠ .keys) (args : List V) : f.apply env o args = f.apply env o' args := by
  cases f <;> first | exact absurd rfl hf | (rcases args with _ | ⟨a, _ | ⟨b, r⟩⟩ <;> rfl)

theorem ite_some {c : Prop} [Decidable c] {f g : Fn} {r : Option Fn} (h : (if c then some f else r) = some g) :
    (c ∧ f = g) ∨ r = some g := by
  by_cases hc : c
  · rw [if_pos hc] at h; cases h; exact .inl ⟨hc, rfl⟩
  · rw [if_neg hc] at h; exact .inr h

theorem ofName_keys {id : Bytes} (h : Fn.ofName id = some .keys) : id = b! "keys" := by
  unfold Fn.ofName at h
  iterate 6 (rcases ite_some h with ⟨_, h⟩ | h; · exact absurd h (by decide))
  rcases ite_some h with ⟨h, _⟩ | h
  · exact h
  iterate 8 (rcases ite_some h with ⟨_, h⟩ | h; · exact absurd h (by decide))
  cases h

theorem call_noKeys {env : Env} {o o' : Ord} {id : Bytes} (hid : id ≠ b! "keys") (args : List V) :
    call env o id args = call env o' id args := by
  unfold call
  split
  · rfl
  · next f hf =>
    have hk : f ≠ .keys := by
      rintro rfl
      exact hid (ofName_keys hf)
    rw [fn_noKeys (o' := o') hk]

theorem applyOp_noKeys {env : Env} {o o' : Ord} {op : Op} (hop : op ≠ .call) (vs : List V) :
    applyOp env o op vs = applyOp env o' op vs := by
  unfold applyOp
  split
  · rfl
  · exact absurd rfl hop
  · rfl

section
variable {env : Env} {oracle oracle' : Oracle} {root dot : V}

mutual
theorem evalExpr_noKeys : ∀ (e : Expr), e.WF → e.noKeys = true → ∀ t t',
    dropT (evalExpr env oracle root dot e t) = dropT (evalExpr env oracle' root dot e t')
  | .int _, _, _, t, t' | .float _, _, _, t, t' | .str _, _, _, t, t' | .bool _, _, _, t, t' | .null, _, _, t, t'
  | .name _, _, _, t, t' | .re _, _, _, t, t' | .current, _, _, t, t' | .root, _, _, t, t' => by unfold evalExpr; rfl
  | .inner op kids, hw, hk, t, t' => by
    unfold evalExpr
    simp only [Expr.noKeys, Bool.and_eq_true] at hk
    have hwk : Exprs.WF kids := by
      cases hw with
      | unary _ e _ h => exact .cons _ _ h .nil
      | binary _ a b _ h1 h2 => exact .cons _ _ h1 (.cons _ _ h2 .nil)
      | dot a s h => exact .cons _ _ h (.cons _ _ (.name _) .nil)
      | array _ h => exact h
      | call _ _ h => exact .cons _ _ (.name _) h
    refine dropT_bind (evalKids_noKeys kids hwk hk.1 t t') ?_
    intro vs t1 t1' h1 h1'
    have hv : applyOp env (oracle t1) op vs = applyOp env (oracle' t1') op vs := by
      by_cases hop : op = .call
      · subst hop
        cases hw with
        | unary _ _ h => cases h
        | binary _ _ _ h => cases h
        | call f es h =>
          have hf : f ≠ b! "keys" := by simpa using hk.2
          have : ∃ args, vs = .name f :: args := by
            unfold evalKids at h1
            simp only [evalExpr, Res.bind_ok] at h1
            obtain ⟨⟨args, _⟩, _, h1⟩ := bind_eq_ok h1
            cases h1
            exact ⟨_, rfl⟩
          obtain ⟨args, rfl⟩ := this
          exact call_noKeys hf args
      · exact applyOp_noKeys hop vs
    dsimp only
    rw [hv]
    cases applyOp env (oracle' t1') op vs <;> rfl
theorem evalKids_noKeys : ∀ (es : List Expr), Exprs.WF es → Exprs.noKeys es = true → ∀ t t',
    dropT (evalKids env oracle root dot es t) = dropT (evalKids env oracle' root dot es t')
  | [], _, _, t, t' => by unfold evalKids; rfl
  | e :: r, hw, hk, t, t' => by
    simp only [Exprs.noKeys, Bool.and_eq_true] at hk
    cases hw with
    | cons _ _ h1 h2 =>
    unfold evalKids
    refine dropT_bind (evalExpr_noKeys e h1 hk.1 t t') ?_
    intro v t1 t1' _ _
    refine dropT_bind (evalKids_noKeys r h2 hk.2 t1 t1') ?_
    intro vs t2 t2' _ _
    rfl
end

theorem evalVals_noKeys : ∀ (as : List Val), (∀ v ∈ as, v.WF) → (∀ e, Val.expr e ∈ as → e.noKeys = true) → ∀ t t',
    dropT (evalVals env oracle root dot as t) = dropT (evalVals env oracle' root dot as t')
  | [], _, _, t, t' => by unfold evalVals; rfl
  | a :: r, hw, hk, t, t' => by
    unfold evalVals
    have ha : dropT (evalVal env oracle root dot a t) = dropT (evalVal env oracle' root dot a t') := by
      cases a with
      | expr e => exact evalExpr_noKeys e (hw (.expr e) (by simp)) (hk e (by simp)) t t'
      | _ => rfl
    refine dropT_bind ha ?_
    intro v t1 t1' _ _
    refine dropT_bind (evalVals_noKeys r (fun v hv => hw v (by simp [hv])) (fun e he => hk e (by simp [he])) t1 t1') ?_
    intro vs t2 t2' _ _
    rfl
end

/-! ### The values visited, up to order -/

theorem children_perm {o o' : Ord} (ho : o.Valid) (ho' : o'.Valid) (loc loc' : List Nat) (v : V) :
    (children o loc v).Perm (children o' loc' v) := by
  unfold children
  split
  · exact .refl _
  · next kvs =>
    exact (permute_perm (by simpa using ho loc kvs.length)).trans (permute_perm (by simpa using ho' loc' kvs.length)).symm
  · exact .refl _

theorem stepping_perm1 {o o' : Ord} (ho : o.Valid) (ho' : o'.Valid) : ∀ (l : List V) (k : Nat),
    (stepping o k l).Perm (l.flatMap (children o' []))
  | [], k => by unfold stepping; exact .refl _
  | v :: r, k => by
    unfold stepping
    rw [List.flatMap_cons]
    exact (children_perm ho ho' _ _ v).append (stepping_perm1 ho ho' r (k + 1))

theorem stepping_perm {o o' : Ord} (ho : o.Valid) (ho' : o'.Valid) {l l' : List V} (h : l.Perm l') (k k' : Nat) :
    (stepping o k l).Perm (stepping o' k' l') :=
  ((stepping_perm1 ho ho' l k).trans (h.flatMap_right _)).trans (stepping_perm1 ho' ho' l' k').symm

theorem walkMembers_length (o : Ord) (loc : List Nat) : ∀ (kvs : List (Bytes × V)) (i : Nat),
    (walkMembers o loc i kvs).length = kvs.length
  | [], i => by unfold walkMembers; rfl
  | (k, v) :: r, i => by unfold walkMembers; simp [walkMembers_length o loc r (i + 1)]

mutual
theorem walkdown_perm {o o' : Ord} (ho : o.Valid) (ho' : o'.Valid) : ∀ (v : V) (loc loc' : List Nat),
    (walkdown o loc v).Perm (walkdown o' loc' v)
  | .arr xs, loc, loc' => by unfold walkdown; exact .cons _ (walkElems_perm ho ho' xs loc loc' 0)
  | .obj kvs, loc, loc' => by
    unfold walkdown
    refine .cons _ ?_
    have h1 := (permute_perm (xs := walkMembers o loc 0 kvs) (p := o loc kvs.length)
      (by rw [walkMembers_length]; exact ho loc _)).flatten
    have h2 := (permute_perm (xs := walkMembers o' loc' 0 kvs) (p := o' loc' kvs.length)
      (by rw [walkMembers_length]; exact ho' loc' _)).flatten
    exact h1.trans ((walkMembers_perm ho ho' kvs loc loc' 0).trans h2.symm)
  | .null, _, _ | .bool _, _, _ | .int _, _, _ | .gint _, _, _ | .float _, _, _ | .str _, _, _ | .num _, _, _ | .name _, _, _
  | .re _, _, _ | .slice _, _, _ | .err _, _, _ => by unfold walkdown; exact .refl _
theorem walkElems_perm {o o' : Ord} (ho : o.Valid) (ho' : o'.Valid) : ∀ (xs : List V) (loc loc' : List Nat) (i : Nat),
    (walkElems o loc i xs).Perm (walkElems o' loc' i xs)
  | [], loc, loc', i => by unfold walkElems; exact .refl _
  | v :: r, loc, loc', i => by
    unfold walkElems
    refine List.Perm.append ?_ (walkElems_perm ho ho' r loc loc' (i + 1))
    split
    · exact walkdown_perm ho ho' v _ _
    · exact .refl _
theorem walkMembers_perm {o o' : Ord} (ho : o.Valid) (ho' : o'.Valid) : ∀ (kvs : List (Bytes × V)) (loc loc' : List Nat) (i : Nat),
    (walkMembers o loc i kvs).flatten.Perm (walkMembers o' loc' i kvs).flatten
  | [], loc, loc', i => by unfold walkMembers; exact .refl _
  | (k, v) :: r, loc, loc', i => by
    unfold walkMembers
    rw [List.flatten_cons, List.flatten_cons]
    refine List.Perm.append ?_ (walkMembers_perm ho ho' r loc loc' (i + 1))
    split
    · exact walkdown_perm ho ho' v _ _
    · exact .refl _
end

theorem walker_perm1 {o o' : Ord} (ho : o.Valid) (ho' : o'.Valid) : ∀ (l : List V) (k : Nat),
    (walker o k l).Perm (l.flatMap fun v => if isStructure v then walkdown o' [] v else [])
  | [], k => by unfold walker; exact .refl _
  | v :: r, k => by
    unfold walker
    rw [List.flatMap_cons]
    refine List.Perm.append ?_ (walker_perm1 ho ho' r (k + 1))
    split
    · exact walkdown_perm ho ho' v _ _
    · exact .refl _

theorem walker_perm {o o' : Ord} (ho : o.Valid) (ho' : o'.Valid) {l l' : List V} (h : l.Perm l') (k k' : Nat) :
    (walker o k l).Perm (walker o' k' l') :=
  ((walker_perm1 ho ho' l k).trans (h.flatMap_right _)).trans (walker_perm1 ho' ho' l' k').symm


theorem walker_ne_nil {o : Ord} {v : V} (hv : isStructure v = true) : ∀ {l : List V} {k : Nat}, v ∈ l → walker o k l ≠ []
  | [], k, hm => by cases hm
  | w :: r, k, hm => by
    unfold walker
    intro hc
    rw [List.append_eq_nil_iff] at hc
    rcases List.mem_cons.1 hm with rfl | hm
    · rw [if_pos hv] at hc
      cases v <;> simp [isStructure] at hv <;> simp [walkdown] at hc
    · exact walker_ne_nil hv hm hc.2

mutual
theorem walkdown_structure {ord : Ord} : ∀ (src : V) {loc : List Nat} {v : V}, isStructure src = true → v ∈ walkdown ord loc src → isStructure v = true
  | .arr xs, loc, v, _, h => by
    unfold walkdown at h
    rcases List.mem_cons.1 h with rfl | h
    · rfl
    · exact walkElems_structure xs h
  | .obj kvs, loc, v, _, h => by
    unfold walkdown at h
    rcases List.mem_cons.1 h with rfl | h
    · rfl
    · obtain ⟨l, hl, hv⟩ := List.mem_flatten.1 h
      exact walkMembers_structure kvs (mem_permute hl) hv
  | .null, loc, v, h, _ | .bool _, loc, v, h, _ | .int _, loc, v, h, _ | .gint _, loc, v, h, _ | .float _, loc, v, h, _
  | .str _, loc, v, h, _ | .num _, loc, v, h, _ | .name _, loc, v, h, _ | .re _, loc, v, h, _ | .slice _, loc, v, h, _
  | .err _, loc, v, h, _ => by simp [isStructure] at h
theorem walkElems_structure {ord : Ord} : ∀ (xs : List V) {loc : List Nat} {i : Nat} {v : V}, v ∈ walkElems ord loc i xs →
    isStructure v = true
  | [], loc, i, v, h => by simp [walkElems] at h
  | x :: r, loc, i, v, h => by
    unfold walkElems at h
    rcases List.mem_append.1 h with h | h
    · split at h
      · exact walkdown_structure x ‹_› h
      · cases h
    · exact walkElems_structure r h
theorem walkMembers_structure {ord : Ord} : ∀ (kvs : List (Bytes × V)) {loc : List Nat} {i : Nat} {l : List V} {v : V},
    l ∈ walkMembers ord loc i kvs → v ∈ l → isStructure v = true
  | [], loc, i, l, v, h, _ => by simp [walkMembers] at h
  | (k, x) :: r, loc, i, l, v, h, hv => by
    unfold walkMembers at h
    rcases List.mem_cons.1 h with rfl | h
    · split at hv
      · exact walkdown_structure x ‹_› hv
      · cases hv
    · exact walkMembers_structure r h hv
end

theorem walker_structure {ord : Ord} : ∀ {l : List V} {k : Nat} {v : V}, v ∈ walker ord k l → isStructure v = true
  | [], k, v, h => by simp [walker] at h
  | w :: r, k, v, h => by
    unfold walker at h
    rcases List.mem_append.1 h with h | h
    · split at h
      · exact walkdown_structure w ‹_› h
      · cases h
    · exact walker_structure h

/-! ### What a step adds for one value -/

/-- The key adds the same values whatever was there before. -/
def KeyAdds (env : Env) (src key : V) : Prop := ∀ neg, ∃ l, ∀ acc, Appends (valsByKey env acc src key neg) acc l

theorem KeyAdds.noSlice {env : Env} {src key : V} (h : ∀ s, key ≠ .slice s) : KeyAdds env src key := by
  intro neg
  have fin : ∀ r : Option V, ∃ l, ∀ acc : GoSlice,
      Appends (match r with | some v => .ok (acc.append v) | none => .ok acc) acc l := by
    intro r
    cases r with
    | none => exact ⟨[], fun acc => ⟨acc, rfl, by simp⟩⟩
    | some v => exact ⟨[v], fun acc => ⟨_, rfl, by simp [GoSlice.append, GoSlice.elems]⟩⟩
  have nil : ∃ l, ∀ acc : GoSlice, Appends (.ok acc) acc l := ⟨[], fun acc => ⟨acc, rfl, by simp⟩⟩
  cases key
  case slice s => exact absurd rfl (h s)
  all_goals
    cases src
    case arr xs =>
      simp only [valsByKey]
      split
      · exact fin _
      · exact nil
    case obj kvs => simp only [valsByKey]; exact fin _
    all_goals exact nil

theorem indices_lt {n : Nat} {s : Slice} {j : Nat} (hj : j ∈ s.indices n) : j < n := by
  unfold Slice.indices sliceIndices at hj
  dsimp only at hj
  split at hj
  · exact (mem_upIdx.1 hj).1
  · split at hj
    · exact (mem_downIdx.1 hj).1
    · cases hj

theorem KeyAdds.slice {env : Env} {xs : List V} {s : Slice} (hl : xs.length < 2 ^ 63)
    (hs : (xs.length : Int) + s.strideInt ≤ 2 ^ 63) : KeyAdds env (.arr xs) (.slice s) := by
  intro neg
  obtain ⟨h1, _⟩ := sliceVals_spec xs s hl
  have h1 := h1 (fun j hj => by have := indices_lt hj; omega)
  simp only [valsByKey, h1, Res.bind_ok]
  exact ⟨_, fun acc => ⟨_, rfl, GoSlice.elems_appendAll _ _⟩⟩

theorem union_adds {env : Env} {src : V} : ∀ (sels : List V), (∀ k ∈ sels, KeyAdds env src k) →
    ∃ l, ∀ acc, Appends (unionByKeys env acc src sels) acc l
  | [], _ => ⟨[], fun acc => ⟨acc, rfl, by simp⟩⟩
  | k :: r, h => by
    obtain ⟨l, hl⟩ := union_adds r (fun k hk => h k (by simp [hk]))
    unfold unionByKeys
    split
    · exact ⟨l, hl⟩
    · obtain ⟨l1, h1⟩ := h k (by simp) true
      refine ⟨l1 ++ l, fun acc => ?_⟩
      obtain ⟨o, ho, he⟩ := h1 acc
      obtain ⟨o', ho', he'⟩ := hl o
      exact ⟨o', by rw [ho]; exact ho', by rw [he', he]; simp⟩

/-- A function `f` on accumulators appends the values of `l`, in some order. -/
def Adds (r : Res RErr GoSlice) (acc : GoSlice) (l : List V) : Prop := ∃ out, r = .ok out ∧ out.elems.Perm (acc.elems ++ l)

theorem applySelection_adds {f : Nat → V → GoSlice → Res RErr GoSlice} {g : V → List V} :
    ∀ (l : List V) (k : Nat) (acc : GoSlice), (∀ v ∈ l, ∀ k acc, Adds (f k v acc) acc (g v)) →
    Adds (applySelection f k acc l) acc (l.flatMap g)
  | [], k, acc, _ => ⟨acc, rfl, by simp⟩
  | v :: r, k, acc, h => by
    obtain ⟨out, ho, he⟩ := h v (by simp) k acc
    obtain ⟨out', ho', he'⟩ := applySelection_adds r (k + 1) out (fun w hw => h w (by simp [hw]))
    refine ⟨out', ?_, ?_⟩
    · simp only [applySelection, ho, Res.bind_ok, ho']
    · rw [List.flatMap_cons]
      exact he'.trans (by rw [← List.append_assoc]; exact he.append_right _)

/-- The outcome of a step in two evaluations: the same values up to order, or an error in both. -/
def Alike (r r' : Res RErr (GoSlice × Nat)) : Prop :=
  (∃ o t o' t', r = .ok (o, t) ∧ r' = .ok (o', t') ∧ o.elems.Perm o'.elems) ∨ (∃ e e', r = .err e ∧ r' = .err e')

/-- One visit, in any evaluation: adds the values `l`, or fails. -/
def Body (env : Env) (root : V) (s : Step) (v : V) : Option (List V) → Prop
  | some l => ∀ oracle : Oracle, oracle.Valid → ∀ acc t, ∃ vs t', evalVals env oracle root v s.args t = .ok (vs, t') ∧
      Adds (visit env (oracle t') s.op v vs acc) acc l
  | none => ∀ oracle : Oracle, ∀ t, ∃ e, evalVals env oracle root v s.args t = .err e

theorem visits_adds {env : Env} {oracle : Oracle} (hv : oracle.Valid) {root : V} {s : Step} {c : V → Option (List V)} :
    ∀ (l : List V) (acc : GoSlice) (t : Nat), (∀ v ∈ l, Body env root s v (c v)) →
    ((∀ v ∈ l, c v ≠ none) ∧ ∃ o t', visits env oracle root s l acc t = .ok (o, t') ∧
      o.elems.Perm (acc.elems ++ l.flatMap fun v => (c v).getD [])) ∨
    ((∃ v ∈ l, c v = none) ∧ ∃ e, visits env oracle root s l acc t = .err e)
  | [], acc, t, _ => .inl ⟨by simp, acc, t, by unfold visits; rfl, by simp⟩
  | v :: r, acc, t, h => by
    have hb := h v (by simp)
    unfold visits
    cases hc : c v with
    | none =>
      rw [hc] at hb
      obtain ⟨e, he⟩ := hb oracle t
      rw [he]
      exact .inr ⟨⟨v, by simp, hc⟩, e, rfl⟩
    | some l =>
      rw [hc] at hb
      obtain ⟨vs, t1, h1, out, ho, hp⟩ := hb oracle hv acc t
      simp only [h1, Res.bind_ok, ho]
      rcases visits_adds hv r out (if s.op = .nestWild then t1 + 1 else t1) (fun v hv => h v (by simp [hv])) with
        ⟨ha, o, t', h2, hp2⟩ | ⟨⟨w, hw, hn⟩, e, he⟩
      · refine .inl ⟨?_, o, t', h2, ?_⟩
        · intro w hw
          rcases List.mem_cons.1 hw with rfl | hw
          · rw [hc]; simp
          · exact ha w hw
        · rw [List.flatMap_cons, hc, Option.getD_some]
          exact hp2.trans (by rw [← List.append_assoc]; exact hp.append_right _)
      · exact .inr ⟨⟨w, by simp [hw], hn⟩, e, he⟩

theorem visits_alike {env : Env} {oracle oracle' : Oracle} (hv : oracle.Valid) (hv' : oracle'.Valid) {root : V} {s : Step}
    {l l' : List V} (hp : l.Perm l') (hb : ∀ v ∈ l, ∃ c, Body env root s v c) (t t' : Nat) :
    Alike (visits env oracle root s l (some []) t) (visits env oracle' root s l' (some []) t') := by
  have hc : ∃ c : V → Option (List V), ∀ v ∈ l, Body env root s v (c v) := by
    refine ⟨fun v => open Classical in if h : ∃ c, Body env root s v c then h.choose else none, ?_⟩
    intro v hv
    have := hb v hv
    simp only [this, dite_true]
    exact this.choose_spec
  obtain ⟨c, hc⟩ := hc
  rcases visits_adds hv l (some []) t hc with ⟨ha, o, t1, h1, hp1⟩ | ⟨⟨w, hw, hn⟩, e, he⟩
  · rcases visits_adds hv' l' (some []) t' (fun v hv => hc v (hp.mem_iff.2 hv)) with ⟨ha', o', t1', h1', hp1'⟩ | ⟨⟨w, hw, hn⟩, e, he⟩
    · refine .inl ⟨o, t1, o', t1', h1, h1', ?_⟩
      simp only [GoSlice.elems, Option.getD_some, List.nil_append] at hp1 hp1'
      exact hp1.trans ((hp.flatMap_right _).trans hp1'.symm)
    · exact absurd hn (ha w (hp.mem_iff.2 hw))
  · rcases visits_adds hv' l' (some []) t' (fun v hv => hc v (hp.mem_iff.2 hv)) with ⟨ha', o', t1', h1', hp1'⟩ | ⟨_, e', he'⟩
    · exact absurd hn (ha' w (hp.mem_iff.1 hw))
    · exact .inr ⟨e, e', he, he'⟩


/-- The values of a step's arguments: no slices except those written as such. -/
theorem evalVals_keys {env : Env} {oracle : Oracle} {root dot : V} (hr : NoSlice root) (hd : NoSlice dot) :
    ∀ (as : List Val) (_ : ∀ v ∈ as, v.WF) (t : Nat) (vs : List V) (t' : Nat), evalVals env oracle root dot as t = .ok (vs, t') →
    vs.length = as.length ∧ ∀ k ∈ vs, NoSlice k ∨ ∃ sl, Val.slice sl ∈ as ∧ k = .slice sl
  | [], _, t, vs, t', h => by unfold evalVals at h; cases h; simp
  | a :: r, hw, t, vs, t', h => by
    unfold evalVals at h
    obtain ⟨⟨v, t1⟩, h1, h⟩ := bind_eq_ok h
    obtain ⟨⟨ws, t2⟩, h2, h⟩ := bind_eq_ok h
    cases h
    obtain ⟨hl, hk⟩ := evalVals_keys hr hd r (fun v hv => hw v (by simp [hv])) t1 ws _ h2
    refine ⟨by simp [hl], ?_⟩
    intro k hkm
    rcases List.mem_cons.1 hkm with rfl | hkm
    · cases a with
      | expr e =>
        have := evalExpr_safe (S := True) env oracle root dot hr hd e (hw (.expr e) (by simp)) t
        rw [show evalExpr env oracle root dot e t = .ok (k, t1) from h1] at this
        exact .inl this.2
      | slice s => cases h1; exact .inr ⟨s, by simp, rfl⟩
      | name _ => cases h1; exact .inl (.name _)
      | int _ => cases h1; exact .inl (.int _)
      | str _ => cases h1; exact .inl (.str _)
    · rcases hk k hkm with h | ⟨sl, h, rfl⟩
      · exact .inl h
      · exact .inr ⟨sl, by simp [h], rfl⟩

/-- The values of a step's arguments are the same in every evaluation. -/
theorem evalVals_same {env : Env} {root dot : V} (hr : NoSlice root) (hd : NoSlice dot) (as : List Val)
    (hw : ∀ v ∈ as, v.WF) (hk : ∀ e, Val.expr e ∈ as → e.noKeys = true) (hs : ∀ v ∈ as, v.SlicesOk root) :
    (∃ vs, ∀ oracle t, ∃ t', evalVals env oracle root dot as t = .ok (vs, t')) ∨
    (∃ e, ∀ oracle t, evalVals env oracle root dot as t = .err e) := by
  have h0 := evalVals_safe (S := True) (env := env) (oracle := Oracle.id) hr hd as hw (fun v hv _ => hs v hv) 0
  have hsame := fun oracle t => evalVals_noKeys (env := env) (oracle := oracle) (oracle' := Oracle.id) (root := root) (dot := dot)
    as hw hk t 0
  cases h : evalVals env Oracle.id root dot as 0 with
  | ok x =>
    obtain ⟨vs, t1⟩ := x
    refine .inl ⟨vs, fun oracle t => ?_⟩
    have := hsame oracle t
    rw [h] at this
    cases h2 : evalVals env oracle root dot as t with
    | ok y => obtain ⟨ws, t2⟩ := y; rw [h2] at this; cases this; exact ⟨t2, rfl⟩
    | _ => rw [h2] at this; cases this
  | err e =>
    refine .inr ⟨e, fun oracle t => ?_⟩
    have := hsame oracle t
    rw [h] at this
    cases h2 : evalVals env oracle root dot as t with
    | err y => rw [h2] at this; cases this; rfl
    | _ => rw [h2] at this; cases this
  | panic m => rw [h] at h0; exact absurd trivial h0
  | stuck => rw [h] at h0; exact h0.elim

section step
variable {env : Env} {root : V} (hr : NoSlice root) (hl : LensOk root) {s : Step} (hw : s.WF)
  (hk : ∀ e, Val.expr e ∈ s.args → e.noKeys = true) (hs : ∀ v ∈ s.args, v.SlicesOk root)
include hr hl hw hk hs

omit hk in
/-- Keys of a step on a value of the document that can be sliced, if that is needed. -/
theorem keyAdds {oracle : Oracle} {dot v : V} (hd : NoSlice dot) (hsl : s.HasSlice → ∃ xs, v = .arr xs ∧ Desc root (.arr xs))
    {t t' : Nat} {vs : List V} (h : evalVals env oracle root dot s.args t = .ok (vs, t')) : ∀ k ∈ vs, KeyAdds env v k := by
  intro k hkm
  rcases (evalVals_keys hr hd s.args hw.1 t vs t' h).2 k hkm with h | ⟨sl, h, rfl⟩
  · exact .noSlice (fun s hs => h s (hs ▸ .root))
  · obtain ⟨xs, rfl, hd⟩ := hsl ⟨sl, h⟩
    exact .slice (hl xs hd) (hs _ h xs hd)

theorem body_exists (hloop : s.op = .filter ∨ s.op = .nestFilter ∨ s.op = .nestMember ∨ s.op = .nestSelect ∨ s.op = .nestUnion ∨ s.op = .nestWild)
    {v : V} (hv : From True root v) (hsl : s.HasSlice → ∃ xs, v = .arr xs ∧ Desc root (.arr xs)) : ∃ c, Body env root s v c := by
  have hd : NoSlice v := by
    rcases hv with h | ⟨_, rfl⟩
    · exact hr.desc h
    · exact .null
  rcases evalVals_same (env := env) hr hd s.args hw.1 hk hs with ⟨vs, hvs⟩ | ⟨e, he⟩
  · have hlen : vs.length = s.args.length := by
      obtain ⟨t', h⟩ := hvs Oracle.id 0
      exact (evalVals_keys hr hd s.args hw.1 0 vs t' h).1
    have hadds : ∀ k ∈ vs, KeyAdds env v k := by
      obtain ⟨t', h⟩ := hvs Oracle.id 0
      exact keyAdds hr hl hw hs hd hsl h
    have fin : ∀ l, (∀ ord : Ord, ord.Valid → ∀ acc, Adds (visit env ord s.op v vs acc) acc l) → ∃ c, Body env root s v c := by
      intro l h
      refine ⟨some l, fun oracle ho acc t => ?_⟩
      obtain ⟨t', h'⟩ := hvs oracle t
      exact ⟨vs, t', h', h _ (ho t') acc⟩
    have hone : (∃ v, s.args = [v]) → ∃ v, vs = [v] := by
      rintro ⟨v, hv⟩
      rw [hv] at hlen
      match vs, hlen with
      | [w], _ => exact ⟨w, rfl⟩
    have hfilter : ∀ (k : V) (acc : GoSlice), Adds (.ok (if (!isNothing k && cvb env k) = true then acc.append v else acc)) acc
        (if (!isNothing k && cvb env k) = true then [v] else []) := by
      intro k acc
      refine ⟨_, rfl, ?_⟩
      split
      · exact .refl _
      · simp
    have hsel : ∀ (k : V) (neg : Bool), k ∈ vs → ∃ l, ∀ acc : GoSlice,
        Adds (if isNothing k then .ok acc else valsByKey env acc v k neg) acc l := by
      intro k neg hk
      split
      · exact ⟨[], fun acc => ⟨acc, rfl, by simp⟩⟩
      · obtain ⟨l, hl⟩ := hadds k hk neg
        refine ⟨l, fun acc => ?_⟩
        obtain ⟨o, h1, h2⟩ := hl acc
        exact ⟨o, h1, .of_eq h2⟩
    have h2 := hw.2
    rcases hloop with h | h | h | h | h | h <;> rw [h] at h2 fin
    · obtain ⟨e, he⟩ := h2
      obtain ⟨k, rfl⟩ := hone ⟨_, he⟩
      exact fin _ (fun ord _ acc => hfilter k acc)
    · obtain ⟨e, he⟩ := h2
      obtain ⟨k, rfl⟩ := hone ⟨_, he⟩
      exact fin _ (fun ord _ acc => hfilter k acc)
    · obtain ⟨k, rfl⟩ := hone h2
      obtain ⟨l, hl⟩ := hsel k false (by simp)
      exact fin l (fun ord _ acc => hl acc)
    · obtain ⟨k, rfl⟩ := hone h2
      obtain ⟨l, hl⟩ := hsel k true (by simp)
      exact fin l (fun ord _ acc => hl acc)
    · obtain ⟨l, hl⟩ := union_adds vs hadds
      refine fin l (fun ord _ acc => ?_)
      obtain ⟨o, h1, h2⟩ := hl acc
      exact ⟨o, h1, .of_eq h2⟩
    · have : vs = [] := by
        rw [h2] at hlen
        simpa using hlen
      subst this
      refine fin (children (Oracle.id 0) [] v) (fun ord ho acc => ?_)
      refine ⟨_, rfl, ?_⟩
      rw [GoSlice.elems_appendAll]
      exact (children_perm ho (fun _ _ => .refl _) _ _ v).append_left _
  · exact ⟨none, fun oracle t => ⟨e, he oracle t⟩⟩

/-- One step: the same values up to order, or an error in both evaluations. -/
theorem evalStep_alike {oracle oracle' : Oracle} (hv : oracle.Valid) (hv' : oracle'.Valid) {out out' : GoSlice}
    (hp : out.elems.Perm out'.elems) (ho : ∀ v ∈ out.elems, From True root v) (hsl : s.HasSlice → ∀ v ∈ out.elems, Sliceable s v)
    (t t' : Nat) : Alike (evalStep env oracle root s out t) (evalStep env oracle' root s out' t') := by
  have hselS : s.HasSlice → ∀ v ∈ out.elems, ∃ xs, v = .arr xs ∧ Desc root (.arr xs) := by
    intro h v hv
    obtain ⟨xs, rfl⟩ := (hsl h v hv).1
    rcases ho _ hv with h | ⟨_, h⟩
    · exact ⟨xs, rfl, h⟩
    · cases h
  have happ : ∀ (f f' : Nat → V → GoSlice → Res RErr GoSlice) (t t' : Nat),
      (∀ v ∈ out.elems, ∃ l, (∀ k acc, Adds (f k v acc) acc l) ∧ ∀ k acc, Adds (f' k v acc) acc l) →
      Alike (do
        let o ← applySelection f 0 (some []) out.elems
        .ok (o, t)) (do
        let o ← applySelection f' 0 (some []) out'.elems
        .ok (o, t')) := by
    intro f f' t t' hf
    have hg : ∃ g : V → List V, ∀ v ∈ out.elems, (∀ k acc, Adds (f k v acc) acc (g v)) ∧ ∀ k acc, Adds (f' k v acc) acc (g v) := by
      refine ⟨fun v => open Classical in if h : v ∈ out.elems then (hf v h).choose else [], ?_⟩
      intro v hv
      simp only [hv, dite_true]
      exact (hf v hv).choose_spec
    obtain ⟨g, hg⟩ := hg
    obtain ⟨o, h1, h2⟩ := applySelection_adds out.elems 0 (some []) (fun v hv => (hg v hv).1)
    obtain ⟨o', h1', h2'⟩ := applySelection_adds out'.elems 0 (some []) (fun v hv => (hg v (hp.mem_iff.2 hv)).2)
    rw [h1, h1']
    refine .inl ⟨o, t, o', t', rfl, rfl, ?_⟩
    simp only [GoSlice.elems, Option.getD_some, List.nil_append] at h2 h2' hp
    exact h2.trans ((hp.flatMap_right _).trans h2'.symm)
  have hloop : (s.op = .filter ∨ s.op = .nestFilter ∨ s.op = .nestMember ∨ s.op = .nestSelect ∨ s.op = .nestUnion ∨ s.op = .nestWild) →
      ∀ (vals vals' : List V) (t t' : Nat), vals.Perm vals' → (∀ v ∈ vals, Desc root v) →
      (s.HasSlice → ∀ v ∈ vals, ∃ xs, v = .arr xs) → (s.HasSlice → out.elems ≠ [] → vals ≠ []) →
      Alike (loop env oracle root s vals out t) (loop env oracle' root s vals' out' t') := by
    intro hop vals vals' t t' hpv hd hsv hne
    unfold loop
    have hem : out'.elems.isEmpty = out.elems.isEmpty := by
      rw [Bool.eq_iff_iff, List.isEmpty_iff, List.isEmpty_iff]
      constructor
      · intro h; rw [h] at hp; exact hp.eq_nil
      · intro h; rw [h] at hp; exact hp.symm.eq_nil
    rw [hem]
    split
    · exact .inl ⟨_, _, _, _, rfl, rfl, hp⟩
    · next hne' =>
      simp only [List.isEmpty_iff] at hne'
      have hvv : (visited vals).Perm (visited vals') := by
        unfold visited
        by_cases hv : vals = []
        · subst hv; rw [hpv.symm.eq_nil]
        · have hv2 : vals' ≠ [] := by rintro rfl; exact hv hpv.eq_nil
          rw [if_neg (by simpa using hv), if_neg (by simpa using hv2)]
          exact hpv
      refine visits_alike hv hv' hvv ?_ t t'
      intro v hvm
      unfold visited at hvm
      by_cases hnil : vals = []
      · rw [if_pos (by simpa using hnil), List.mem_singleton] at hvm
        subst hvm
        refine body_exists hr hl hw hk hs hop (.inr ⟨trivial, rfl⟩) ?_
        intro h
        exact absurd hnil (hne h hne')
      · rw [if_neg (by simpa using hnil)] at hvm
        refine body_exists hr hl hw hk hs hop (.inl (hd v hvm)) ?_
        intro h
        obtain ⟨xs, rfl⟩ := hsv h v hvm
        exact ⟨xs, rfl, hd _ hvm⟩
  have hsel : ∀ neg, (∃ v, s.args = [v]) → Alike (do
      let (vs, t) ← evalVals env oracle root .null s.args t
      match vs with
      | [sel] =>
        if isNothing sel then Res.ok (some [], t)
        else do
          let out ← applySelection (fun _ el acc => valsByKey env acc el sel neg) 0 (some []) out.elems
          Res.ok (out, t)
      | _ => .stuck : Res RErr (GoSlice × Nat)) (do
      let (vs, t) ← evalVals env oracle' root .null s.args t'
      match vs with
      | [sel] =>
        if isNothing sel then Res.ok (some [], t)
        else do
          let out ← applySelection (fun _ el acc => valsByKey env acc el sel neg) 0 (some []) out'.elems
          Res.ok (out, t)
      | _ => .stuck : Res RErr (GoSlice × Nat)) := by
    rintro neg ⟨w, hone⟩
    rcases evalVals_same (env := env) hr .null s.args hw.1 hk hs with ⟨vs, hvs⟩ | ⟨e, he⟩
    · obtain ⟨t1, h1⟩ := hvs oracle t
      obtain ⟨t1', h1'⟩ := hvs oracle' t'
      have hlen := (evalVals_keys hr .null s.args hw.1 t vs t1 h1).1
      rw [h1, h1']
      simp only [Res.bind_ok]
      rw [hone] at hlen
      match vs, hlen, h1 with
      | [sel], _, h1 =>
        simp only
        split
        · exact .inl ⟨_, _, _, _, rfl, rfl, .refl _⟩
        · refine happ _ _ _ _ ?_
          intro v hv
          obtain ⟨l, hl'⟩ := keyAdds hr hl hw hs .null (fun h => hselS h v hv) h1 sel (by simp) neg
          have : ∀ acc, Adds (valsByKey env acc v sel neg) acc l := by
            intro acc
            obtain ⟨o, h1, h2⟩ := hl' acc
            exact ⟨o, h1, .of_eq h2⟩
          exact ⟨l, fun _ => this, fun _ => this⟩
    · rw [he, he]
      exact .inr ⟨e, e, rfl, rfl⟩
  have hwalk : (s.op = .nestFilter ∨ s.op = .nestMember ∨ s.op = .nestSelect ∨ s.op = .nestUnion ∨ s.op = .nestWild) →
      Alike (loop env oracle root s (walker (oracle t) 0 out.elems) out (t + 1))
        (loop env oracle' root s (walker (oracle' t') 0 out'.elems) out' (t' + 1)) := by
    intro hop
    refine hloop (.inr hop) _ _ _ _ (walker_perm (hv t) (hv' t') hp 0 0) ?_ ?_ ?_
    · intro v hv
      obtain ⟨src, hsrc, hst, hd⟩ := mem_walker hv
      rcases ho src hsrc with h | ⟨_, rfl⟩
      · exact h.trans hd
      · simp [isStructure] at hst
    · intro hsl' v hv'
      obtain ⟨src, hsrc, hst, hd⟩ := mem_walker hv'
      have hst2 := walker_structure hv'
      have h2 := hw.2
      have hns : s.op = .nestSelect ∨ s.op = .nestUnion ∨ s.op = .nestMember := by
        obtain ⟨sl, hsl'⟩ := hsl'
        rcases hop with h | h | h | h | h <;> rw [h] at h2
        · obtain ⟨e, he⟩ := h2; rw [he] at hsl'; simp at hsl'
        · exact .inr (.inr h)
        · exact .inl h
        · exact .inr (.inl h)
        · rw [h2] at hsl'; cases hsl'
      have := hsl hsl' src hsrc
      cases v with
      | arr xs => exact ⟨xs, rfl⟩
      | obj kvs => exact absurd hd (this.2 hns kvs)
      | _ => simp [isStructure] at hst2
    · intro hsl' hne
      obtain ⟨v, hvm⟩ := List.exists_mem_of_ne_nil _ hne
      obtain ⟨xs, rfl⟩ := (hsl hsl' v hvm).1
      exact walker_ne_nil rfl hvm
  have h2 := hw.2
  unfold evalStep
  cases hop : s.op <;> rw [hop] at h2 <;> simp only at h2 ⊢
  case wild =>
    refine happ _ _ _ _ ?_
    intro v hvm
    refine ⟨children (Oracle.id 0) [] v, fun k acc => ⟨_, rfl, ?_⟩, fun k acc => ⟨_, rfl, ?_⟩⟩
    · rw [GoSlice.elems_appendAll]
      exact (children_perm (hv t) (fun _ _ => .refl _) _ _ v).append_left _
    · rw [GoSlice.elems_appendAll]
      exact (children_perm (hv' t') (fun _ _ => .refl _) _ _ v).append_left _
  case member => exact hsel _ h2
  case select => exact hsel _ h2
  case union =>
    rcases evalVals_same (env := env) hr .null s.args hw.1 hk hs with ⟨vs, hvs⟩ | ⟨e, he⟩
    · obtain ⟨t1, h1⟩ := hvs oracle t
      obtain ⟨t1', h1'⟩ := hvs oracle' t'
      rw [h1, h1']
      simp only [Res.bind_ok]
      refine happ _ _ _ _ ?_
      intro v hv
      obtain ⟨l, hl'⟩ := union_adds vs (keyAdds hr hl hw hs .null (fun h => hselS h v hv) h1)
      have : ∀ acc, Adds (unionByKeys env acc v vs) acc l := by
        intro acc
        obtain ⟨o, h1, h2⟩ := hl' acc
        exact ⟨o, h1, .of_eq h2⟩
      exact ⟨l, fun _ => this, fun _ => this⟩
    · rw [he, he]
      exact .inr ⟨e, e, rfl, rfl⟩
  case filter =>
    have hno : ¬ s.HasSlice := by
      rintro ⟨sl, h⟩
      obtain ⟨e, he⟩ := h2
      rw [he] at h
      simp at h
    refine hloop (.inl hop) _ _ _ _ (stepping_perm (hv t) (hv' t') hp 0 0) ?_ (fun h => absurd h hno) (fun h => absurd h hno)
    intro v hv
    obtain ⟨src, hsrc, hc⟩ := mem_stepping hv
    exact (ho src hsrc).child hc
  all_goals exact hwalk (by simp [hop])


omit hk hs hr hl hw in
theorem exists_g {l : List V} {P : V → List V → Prop} (h : ∀ v ∈ l, ∃ x, P v x) : ∃ g : V → List V, ∀ v ∈ l, P v (g v) := by
  refine ⟨fun v => open Classical in if h' : v ∈ l then (h v h').choose else [], ?_⟩
  intro v hv
  simp only [hv, dite_true]
  exact (h v hv).choose_spec

/-- A visit of null adds nothing. -/
def NullAddsNothing (env : Env) (root : V) (s : Step) : Prop := ∀ l, Body env root s .null (some l) → l = []

omit hk hs hl in
/-- A descent that is not a filter selects nothing from null. -/
theorem nullAddsNothing (hop : s.op = .nestMember ∨ s.op = .nestSelect ∨ s.op = .nestUnion ∨ s.op = .nestWild) (hno : ¬ s.HasSlice) :
    NullAddsNothing env root s := by
  intro l hb
  obtain ⟨vs, t', h1, out, h2, hp⟩ := hb Oracle.id (fun _ _ _ => .refl _) (some []) 0
  have hkeys : ∀ k ∈ vs, ∀ sl, k ≠ .slice sl := by
    intro k hk sl he
    rcases (evalVals_keys hr .null s.args hw.1 0 vs t' h1).2 k hk with h | ⟨sl', h, -⟩
    · exact h sl (he ▸ .root)
    · exact hno ⟨sl', h⟩
  have hsel : ∀ (k : V) (neg : Bool) (acc : GoSlice), (∀ sl, k ≠ .slice sl) → valsByKey env acc .null k neg = .ok acc := by
    intro k neg acc hk
    unfold valsByKey
    split
    · exact absurd rfl (hk _)
    · rfl
  have huni : ∀ (ks : List V) (acc : GoSlice), (∀ k ∈ ks, ∀ sl, k ≠ .slice sl) → unionByKeys env acc .null ks = .ok acc := by
    intro ks
    induction ks with
    | nil => intro acc _; rfl
    | cons k r ih =>
      intro acc hk
      unfold unionByKeys
      split
      · exact ih acc (fun k hk' => hk k (by simp [hk']))
      · rw [hsel k true acc (hk k (by simp))]
        exact ih acc (fun k hk' => hk k (by simp [hk']))
  have hout : out.elems = [] := by
    rcases hop with h | h | h | h <;> rw [h] at h2 <;> unfold visit at h2
    · split at h2 <;> simp_all
      rw [← h2]; rfl
    · split at h2 <;> simp_all
      rw [← h2]; rfl
    · simp only at h2
      rw [huni vs _ hkeys] at h2; cases h2; rfl
    · split at h2 <;> simp_all
      rw [← h2]; rfl
  rw [hout] at hp
  simpa [GoSlice.elems] using hp.symm.eq_nil

/-- A step without slices on the concatenation of two result sets.  If the step visits values, there must be
some to visit in each part, or a visit of null must add nothing. -/
theorem evalStep_cat (hno : ¬ s.HasSlice) {o1 o2 o3 : Oracle} (hv1 : o1.Valid) (hv2 : o2.Valid) (hv3 : o3.Valid) {a b : List V}
    (ha : ∀ v ∈ a, From True root v) (hb : ∀ v ∈ b, From True root v) (t1 t2 t3 : Nat)
    (hva : s.op = .filter → a ≠ [] → stepping (o1 t1) 0 a ≠ [] ∨ NullAddsNothing env root s)
    (hvb : s.op = .filter → b ≠ [] → stepping (o2 t2) 0 b ≠ [] ∨ NullAddsNothing env root s)
    (hwa : s.op = .nestFilter → a ≠ [] → walker (o1 t1) 0 a ≠ [] ∨ NullAddsNothing env root s)
    (hwb : s.op = .nestFilter → b ≠ [] → walker (o2 t2) 0 b ≠ [] ∨ NullAddsNothing env root s)
    {oa ob : GoSlice} {ta tb : Nat} (h1 : evalStep env o1 root s (some a) t1 = .ok (oa, ta))
    (h2 : evalStep env o2 root s (some b) t2 = .ok (ob, tb)) :
    ∃ o t, evalStep env o3 root s (some (a ++ b)) t3 = .ok (o, t) ∧ o.elems.Perm (oa.elems ++ ob.elems) := by
  have hab : ∀ v ∈ a ++ b, From True root v := by
    intro v hv
    rcases List.mem_append.1 hv with h | h
    · exact ha v h
    · exact hb v h
  have happ : ∀ (f1 f2 f3 : Nat → V → GoSlice → Res RErr GoSlice),
      (∀ v ∈ a ++ b, ∃ l, (∀ k acc, Adds (f1 k v acc) acc l) ∧ (∀ k acc, Adds (f2 k v acc) acc l) ∧ ∀ k acc, Adds (f3 k v acc) acc l) →
      ∀ {ta' tb' : Nat}, (do
        let o ← applySelection f1 0 (some []) a
        .ok (o, ta') : Res RErr (GoSlice × Nat)) = .ok (oa, ta) → (do
        let o ← applySelection f2 0 (some []) b
        .ok (o, tb') : Res RErr (GoSlice × Nat)) = .ok (ob, tb) → ∀ t, ∃ o t', (do
        let o ← applySelection f3 0 (some []) (a ++ b)
        .ok (o, t) : Res RErr (GoSlice × Nat)) = .ok (o, t') ∧ o.elems.Perm (oa.elems ++ ob.elems) := by
    intro f1 f2 f3 hf ta' tb' h1 h2 t
    obtain ⟨g, hg⟩ := exists_g hf
    obtain ⟨x1, hx1, hp1⟩ := applySelection_adds (f := f1) a 0 (some []) (fun v hv => (hg v (by simp [hv])).1)
    obtain ⟨x2, hx2, hp2⟩ := applySelection_adds (f := f2) b 0 (some []) (fun v hv => (hg v (by simp [hv])).2.1)
    obtain ⟨x3, hx3, hp3⟩ := applySelection_adds (f := f3) (a ++ b) 0 (some []) (fun v hv => (hg v hv).2.2)
    rw [hx1] at h1; rw [hx2] at h2; rw [hx3]
    cases h1; cases h2
    refine ⟨x3, t, rfl, hp3.trans ?_⟩
    simp only [GoSlice.elems, Option.getD_some, List.nil_append, List.flatMap_append] at hp1 hp2 ⊢
    exact (hp1.append hp2).symm
  have hloop : (s.op = .filter ∨ s.op = .nestFilter ∨ s.op = .nestMember ∨ s.op = .nestSelect ∨ s.op = .nestUnion ∨ s.op = .nestWild) →
      ∀ (l1 l2 l3 : List V) {u1 u2 : Nat}, l3.Perm (l1 ++ l2) → (∀ v ∈ l3, Desc root v) →
      (a ≠ [] → l1 ≠ [] ∨ NullAddsNothing env root s) → (b ≠ [] → l2 ≠ [] ∨ NullAddsNothing env root s) →
      (a = [] → l1 = []) → (b = [] → l2 = []) →
      loop env o1 root s l1 (some a) u1 = .ok (oa, ta) → loop env o2 root s l2 (some b) u2 = .ok (ob, tb) →
      ∀ u3, ∃ o t, loop env o3 root s l3 (some (a ++ b)) u3 = .ok (o, t) ∧ o.elems.Perm (oa.elems ++ ob.elems) := by
    intro hop l1 l2 l3 u1 u2 hp hd hn1 hn2 he1 he2 h1 h2 u3
    have hbody : ∀ v ∈ .null :: l3, ∃ c, Body env root s v c := fun v hv => by
      rcases List.mem_cons.1 hv with rfl | hv
      · exact body_exists hr hl hw hk hs hop (.inr ⟨trivial, rfl⟩) (fun h => absurd h hno)
      · exact body_exists hr hl hw hk hs hop (.inl (hd v hv)) (fun h => absurd h hno)
    have hc : ∃ c : V → Option (List V), ∀ v ∈ .null :: l3, Body env root s v (c v) := by
      refine ⟨fun v => open Classical in if h : ∃ c, Body env root s v c then h.choose else none, ?_⟩
      intro v hv
      have := hbody v hv
      simp only [this, dite_true]
      exact this.choose_spec
    obtain ⟨c, hc⟩ := hc
    have hnull : NullAddsNothing env root s → (c .null).getD [] = [] := by
      intro h
      have := hc .null (by simp)
      cases hcn : c .null with
      | none => rfl
      | some l => rw [hcn] at this; exact h l this
    have part : ∀ (o' : Oracle) (hv' : o'.Valid) (x : List V) (l : List V) (u : Nat) (r : GoSlice) (tr : Nat), (∀ v ∈ l, v ∈ l3) →
        (x ≠ [] → l ≠ [] ∨ NullAddsNothing env root s) → (x = [] → l = []) → loop env o' root s l (some x) u = .ok (r, tr) →
        r.elems.Perm (l.flatMap fun v => (c v).getD []) ∧ (∀ v ∈ l, c v ≠ none) ∧
          (x ≠ [] → l = [] → c .null ≠ none ∧ (c .null).getD [] = []) := by
      intro o' hv' x l u r tr hsub hn he h
      unfold loop at h
      by_cases hx : x = []
      · subst hx
        have := he rfl
        subst this
        simp [GoSlice.elems] at h
        rw [← h.1]; simp [GoSlice.elems]
      · rw [if_neg (by simpa [GoSlice.elems] using hx)] at h
        have hsub' : ∀ v ∈ visited l, v ∈ .null :: l3 := by
          intro v hv
          unfold visited at hv
          split at hv
          · simp only [List.mem_singleton] at hv; simp [hv]
          · simp [hsub v hv]
        rcases visits_adds hv' (visited l) (some []) u (fun v hv => hc v (hsub' v hv)) with ⟨hok, o, t', h', hp'⟩ | ⟨_, e, h'⟩
        · rw [h] at h'; cases h'
          by_cases hle : l = []
          · subst hle
            have h0 := hnull ((hn hx).resolve_left (by simp))
            refine ⟨?_, by simp, fun _ _ => ⟨hok .null (by simp [visited]), h0⟩⟩
            simpa [GoSlice.elems, visited, h0] using hp'
          · have hvis : visited l = l := by
              unfold visited; rw [if_neg (by simpa using hle)]
            rw [hvis] at hp' hok
            exact ⟨by simpa [GoSlice.elems] using hp', hok, fun _ h => absurd h hle⟩
        · rw [h] at h'; cases h'
    obtain ⟨hp1, hok1, hz1⟩ := part o1 hv1 a l1 u1 oa ta (fun v hv => hp.mem_iff.2 (by simp [hv])) hn1 he1 h1
    obtain ⟨hp2, hok2, hz2⟩ := part o2 hv2 b l2 u2 ob tb (fun v hv => hp.mem_iff.2 (by simp [hv])) hn2 he2 h2
    have hfm : (l3.flatMap fun v => (c v).getD []).Perm (oa.elems ++ ob.elems) := by
      refine (hp.flatMap_right _).trans ?_
      rw [List.flatMap_append]
      exact (hp1.append hp2).symm
    unfold loop
    by_cases hx : a ++ b = []
    · rw [if_pos (by simpa [GoSlice.elems] using hx)]
      obtain ⟨rfl, rfl⟩ := List.append_eq_nil_iff.1 hx
      refine ⟨_, _, rfl, ?_⟩
      have := he1 rfl
      subst this
      have := he2 rfl
      subst this
      rw [hp1.eq_nil, hp2.eq_nil]
      exact .refl _
    · rw [if_neg (by simpa [GoSlice.elems] using hx)]
      have hmem : ∀ v ∈ visited l3, v ∈ .null :: l3 := by
        intro v hv
        unfold visited at hv
        split at hv
        · simp only [List.mem_singleton] at hv; simp [hv]
        · simp [hv]
      have hne : l3 = [] → c .null ≠ none ∧ (c .null).getD [] = [] := by
        rintro rfl
        have := List.append_eq_nil_iff.1 hp.symm.eq_nil
        by_cases hx1 : a = []
        · by_cases hx2 : b = []
          · exact absurd (by simp [hx1, hx2]) hx
          · exact hz2 hx2 this.2
        · exact hz1 hx1 this.1
      have hvis : l3 ≠ [] → visited l3 = l3 := by
        intro h
        unfold visited; rw [if_neg (by simpa using h)]
      rcases visits_adds hv3 (visited l3) (some []) u3 (fun v hv => hc v (hmem v hv)) with ⟨hok, o, t', h', hp'⟩ | ⟨⟨v, hv, hn⟩, e, h'⟩
      · refine ⟨o, t', h', ?_⟩
        have : o.elems.Perm (l3.flatMap fun v => (c v).getD []) := by
          by_cases hle : l3 = []
          · have h0 := (hne hle).2
            subst hle
            simpa [GoSlice.elems, visited, h0] using hp'
          · rw [hvis hle] at hp'
            simpa [GoSlice.elems] using hp'
        exact this.trans hfm
      · exfalso
        by_cases hle : l3 = []
        · have h0 := (hne hle).1
          subst hle
          simp only [visited, List.isEmpty_nil, if_true, List.mem_singleton] at hv
          subst hv
          exact h0 hn
        · rw [hvis hle] at hv
          rcases List.mem_append.1 (hp.mem_iff.1 hv) with h | h
          · exact hok1 v h hn
          · exact hok2 v h hn
  have hsel : ∀ neg, (∃ v, s.args = [v]) → (do
      let (vs, t) ← evalVals env o1 root .null s.args t1
      match vs with
      | [sel] =>
        if isNothing sel then Res.ok (some [], t)
        else do
          let out ← applySelection (fun _ el acc => valsByKey env acc el sel neg) 0 (some []) a
          Res.ok (out, t)
      | _ => .stuck : Res RErr (GoSlice × Nat)) = .ok (oa, ta) → (do
      let (vs, t) ← evalVals env o2 root .null s.args t2
      match vs with
      | [sel] =>
        if isNothing sel then Res.ok (some [], t)
        else do
          let out ← applySelection (fun _ el acc => valsByKey env acc el sel neg) 0 (some []) b
          Res.ok (out, t)
      | _ => .stuck : Res RErr (GoSlice × Nat)) = .ok (ob, tb) → ∃ o t, (do
      let (vs, t) ← evalVals env o3 root .null s.args t3
      match vs with
      | [sel] =>
        if isNothing sel then Res.ok (some [], t)
        else do
          let out ← applySelection (fun _ el acc => valsByKey env acc el sel neg) 0 (some []) (a ++ b)
          Res.ok (out, t)
      | _ => .stuck : Res RErr (GoSlice × Nat)) = .ok (o, t) ∧ o.elems.Perm (oa.elems ++ ob.elems) := by
    rintro neg ⟨w, hone⟩ h1 h2
    rcases evalVals_same (env := env) hr .null s.args hw.1 hk hs with ⟨vs, hvs⟩ | ⟨e, he⟩
    · obtain ⟨t1', e1⟩ := hvs o1 t1
      obtain ⟨t2', e2⟩ := hvs o2 t2
      obtain ⟨t3', e3⟩ := hvs o3 t3
      have hlen := (evalVals_keys hr .null s.args hw.1 t1 vs t1' e1).1
      rw [e1] at h1
      rw [e2] at h2
      rw [e3]
      simp only [Res.bind_ok] at h1 h2 ⊢
      rw [hone] at hlen
      match vs, hlen, e1, h1, h2 with
      | [sel], _, e1, h1, h2 =>
        simp only at h1 h2 ⊢
        by_cases hsn : isNothing sel = true
        · rw [if_pos hsn] at h1 h2 ⊢
          cases h1; cases h2
          exact ⟨_, _, rfl, .refl _⟩
        · rw [if_neg hsn] at h1 h2 ⊢
          refine happ _ _ _ ?_ h1 h2 _
          intro v hv
          obtain ⟨l, hl'⟩ := keyAdds hr hl hw hs (v := v) .null (fun h => absurd h hno) e1 sel (by simp) neg
          have : ∀ acc, Adds (valsByKey env acc v sel neg) acc l := by
            intro acc
            obtain ⟨o, h1, h2⟩ := hl' acc
            exact ⟨o, h1, .of_eq h2⟩
          exact ⟨l, fun _ => this, fun _ => this, fun _ => this⟩
    · rw [he] at h1
      cases h1
  have hwalk : (s.op = .nestFilter ∨ s.op = .nestMember ∨ s.op = .nestSelect ∨ s.op = .nestUnion ∨ s.op = .nestWild) →
      loop env o1 root s (walker (o1 t1) 0 a) (some a) (t1 + 1) = .ok (oa, ta) →
      loop env o2 root s (walker (o2 t2) 0 b) (some b) (t2 + 1) = .ok (ob, tb) →
      ∃ o t, loop env o3 root s (walker (o3 t3) 0 (a ++ b)) (some (a ++ b)) (t3 + 1) = .ok (o, t) ∧
        o.elems.Perm (oa.elems ++ ob.elems) := by
    intro hop h1 h2
    refine hloop (.inr hop) _ _ _ ?_ ?_ ?_ ?_ ?_ ?_ h1 h2 _
    · refine (walker_perm1 (hv3 t3) (hv3 t3) (a ++ b) 0).trans ?_
      rw [List.flatMap_append]
      exact ((walker_perm1 (hv1 t1) (hv3 t3) a 0).append (walker_perm1 (hv2 t2) (hv3 t3) b 0)).symm
    · intro v hv
      obtain ⟨src, hsrc, hst, hd⟩ := mem_walker hv
      rcases hab src hsrc with h | ⟨_, rfl⟩
      · exact h.trans hd
      · simp [isStructure] at hst
    · intro h
      rcases hop with hop | hop
      · exact hwa hop h
      · exact .inr (nullAddsNothing hr hw hop hno)
    · intro h
      rcases hop with hop | hop
      · exact hwb hop h
      · exact .inr (nullAddsNothing hr hw hop hno)
    · rintro rfl; simp [walker]
    · rintro rfl; simp [walker]
  have hw2 := hw.2
  unfold evalStep at h1 h2 ⊢
  cases hop : s.op <;> rw [hop] at hw2 h1 h2 <;> simp only at hw2 h1 h2 ⊢
  case wild =>
    refine happ _ _ _ ?_ h1 h2 _
    intro v hvm
    have hch : ∀ (o : Ord), o.Valid → ∀ k acc, Adds (.ok (acc.appendAll (children o [k] v))) acc (children (Oracle.id 0) [] v) := by
      intro o ho k acc
      refine ⟨_, rfl, ?_⟩
      rw [GoSlice.elems_appendAll]
      exact (children_perm ho (fun _ _ => .refl _) _ _ v).append_left _
    exact ⟨_, hch _ (hv1 t1), hch _ (hv2 t2), hch _ (hv3 t3)⟩
  case member => exact hsel _ hw2 h1 h2
  case select => exact hsel _ hw2 h1 h2
  case union =>
    rcases evalVals_same (env := env) hr .null s.args hw.1 hk hs with ⟨vs, hvs⟩ | ⟨e, he⟩
    · obtain ⟨t1', e1⟩ := hvs o1 t1
      obtain ⟨t2', e2⟩ := hvs o2 t2
      obtain ⟨t3', e3⟩ := hvs o3 t3
      rw [e1] at h1
      rw [e2] at h2
      rw [e3]
      simp only [Res.bind_ok] at h1 h2 ⊢
      refine happ _ _ _ ?_ h1 h2 _
      intro v hv
      obtain ⟨l, hl'⟩ := union_adds vs (keyAdds hr hl hw hs (v := v) .null (fun h => absurd h hno) e1)
      have : ∀ acc, Adds (unionByKeys env acc v vs) acc l := by
        intro acc
        obtain ⟨o, h1, h2⟩ := hl' acc
        exact ⟨o, h1, .of_eq h2⟩
      exact ⟨l, fun _ => this, fun _ => this, fun _ => this⟩
    · rw [he] at h1; cases h1
  case filter =>
    refine hloop (.inl hop) _ _ _ ?_ ?_ (hva hop) (hvb hop) ?_ ?_ h1 h2 _
    · refine (stepping_perm1 (hv3 t3) (hv3 t3) (a ++ b) 0).trans ?_
      rw [List.flatMap_append]
      exact ((stepping_perm1 (hv1 t1) (hv3 t3) a 0).append (stepping_perm1 (hv2 t2) (hv3 t3) b 0)).symm
    · intro v hv
      obtain ⟨src, hsrc, hc⟩ := mem_stepping hv
      exact (hab src hsrc).child hc
    · rintro rfl; simp [stepping]
    · rintro rfl; simp [stepping]
  all_goals exact hwalk (by simp [hop]) h1 h2

end step

theorem Alike.bind {r r' : Res RErr (GoSlice × Nat)} {f f' : GoSlice × Nat → Res RErr (GoSlice × Nat)} (h : Alike r r')
    (hf : ∀ o t o' t', r = .ok (o, t) → r' = .ok (o', t') → o.elems.Perm o'.elems → Alike (f (o, t)) (f' (o', t'))) :
    Alike (r >>= f) (r' >>= f') := by
  rcases h with ⟨o, t, o', t', h1, h2, hp⟩ | ⟨e, e', h1, h2⟩
  · have := hf o t o' t' h1 h2 hp
    rw [h1, h2]; exact this
  · rw [h1, h2]; exact .inr ⟨e, e', rfl, rfl⟩

theorem evalSteps_alike {env : Env} {root : V} (hr : root.WF) {oracle oracle' : Oracle} (hv : oracle.Valid)
    (hv' : oracle'.Valid) : ∀ (p q : Path), Path.WF (q ++ p) → Path.NoKeys p → StridesFit root (q ++ p) →
    SlicesMeetArrays env root (q ++ p) → ∀ (out out' : GoSlice) (t t' : Nat),
    evalSteps env oracle root q (some [root]) 0 = .ok (out, t) → out.elems.Perm out'.elems →
    Alike (evalSteps env oracle root p out t) (evalSteps env oracle' root p out' t')
  | [], q, _, _, _, _, out, out', t, t', _, hp => by unfold evalSteps; exact .inl ⟨_, _, _, _, rfl, rfl, hp⟩
  | s :: r, q, hw, hk, hst, hsl, out, out', t, t', hq, hp => by
    unfold evalSteps
    have hslices := hst.slices hr
    have hfrom : ∀ v ∈ out.elems, From True root v := by
      have := evalSteps_safe (S := False) (N := True) (env := env) (oracle := oracle) hr.noSlice hr.lens q
        (fun x hx => hw x (by simp [hx])) (fun _ _ _ => trivial) (fun _ _ _ _ h => h.elim) (some [root]) 0
        (by intro v hv; simp [GoSlice.elems] at hv; subst hv; exact .inl .root)
      rw [hq] at this
      exact this
    refine Alike.bind (evalStep_alike hr.noSlice hr.lens (hw s (by simp)) (hk s (by simp)) (hslices s (by simp)) hv hv' hp hfrom ?_ t t') ?_
    · intro hss v hvm
      exact hsl q s r rfl hss oracle hv out.elems (evalPath_ok_iff.2 ⟨out, t, hq, rfl⟩) v hvm
    · intro o t1 o' t1' h1 h2 hp1
      have heq : q ++ s :: r = (q ++ [s]) ++ r := by simp
      rw [heq] at hw hst hsl
      refine evalSteps_alike hr hv hv' r (q ++ [s]) hw (fun x hx => hk x (by simp [hx])) hst hsl o o' t1 t1' ?_ hp1
      rw [evalSteps_append, hq]
      simp only [Res.bind_ok, evalSteps, h1]

/-- A filter that selects nothing from null, as it does whatever the document. -/
theorem nullAddsNothing_of_ignores {env : Env} {root : V} {s : Step} (hw : s.WF) (hn : ∀ e, Val.expr e ∈ s.args → e.noRoot = true)
    (hop : s.op = .filter ∨ s.op = .nestFilter) (h : IgnoresNull env s) : NullAddsNothing env root s := by
  intro l hb
  obtain ⟨vs, t', h1, out, h2, hp⟩ := hb Oracle.id (fun _ _ _ => .refl _) (some []) 0
  have hsh := evalVals_shift (env := env) (oracle := Oracle.id) (oracle' := Oracle.id) (root := root) (root' := .null) (t := 0) (t' := 1)
    (fun _ => rfl) .null s.args (fun e he => .inl (hn e he)) 0
  rw [Nat.add_zero, h1] at hsh
  have h3 : ∃ t'', evalVals env Oracle.id .null .null s.args 1 = .ok (vs, t'') := by
    cases hv : evalVals env Oracle.id .null .null s.args 1 with
    | ok x =>
      rw [Nat.add_zero, hv] at hsh
      exact ⟨x.2, by rw [show vs = x.1 from hsh.1]⟩
    | _ => rw [Nat.add_zero, hv] at hsh; exact hsh.elim
  obtain ⟨t'', h3⟩ := h3
  have hl : loop env Oracle.id .null s [] (some [.null]) 1 = .ok (out, t'') := by
    unfold loop
    rw [if_neg (by simp [GoSlice.elems])]
    simp only [visited, List.isEmpty_nil, if_true, visits, h3, Res.bind_ok, show Oracle.id t'' = Oracle.id t' from rfl, h2]
    rcases hop with h | h <;> simp [h]
  have he : evalStep env Oracle.id .null s (some [.null]) 0 = .ok (out, t'') := by
    rw [← hl]
    unfold evalStep
    rcases hop with h | h <;> rw [h] <;> rfl
  unfold IgnoresNull evalPath at h
  simp only [evalSteps, he, Res.bind_ok] at h
  have : out.elems = [] := by injection h with h; injection h
  rw [this] at hp
  simpa [GoSlice.elems] using hp.symm.eq_nil

section path
variable {env : Env} {root : V} (hr : root.WF)
include hr

/-- The order of the result set does not matter to the steps of a path without slices. -/
theorem evalSteps_perm {oracle oracle' : Oracle} (hv : oracle.Valid) (hv' : oracle'.Valid) : ∀ (p : Path), p.WF → p.NoKeys →
    (∀ s ∈ p, ¬ s.HasSlice) → ∀ (out out' : GoSlice) (t t' : Nat), (∀ v ∈ out.elems, From True root v) → out.elems.Perm out'.elems →
    Alike (evalSteps env oracle root p out t) (evalSteps env oracle' root p out' t')
  | [], _, _, _, out, out', t, t', _, hp => by unfold evalSteps; exact .inl ⟨_, _, _, _, rfl, rfl, hp⟩
  | s :: r, hw, hk, hno, out, out', t, t', hf, hp => by
    unfold evalSteps
    have hs : ∀ v ∈ s.args, v.SlicesOk root := by
      intro v hvm
      cases v with
      | slice sl => exact absurd ⟨sl, hvm⟩ (hno s (by simp))
      | _ => trivial
    refine Alike.bind (evalStep_alike hr.noSlice hr.lens (hw s (by simp)) (hk s (by simp)) hs hv hv' hp hf
      (fun h => absurd h (hno s (by simp))) t t') ?_
    intro o t1 o' t1' h1 h2 hp1
    refine evalSteps_perm hv hv' r (fun x hx => hw x (by simp [hx])) (fun x hx => hk x (by simp [hx])) (fun x hx => hno x (by simp [hx]))
      o o' t1 t1' ?_ hp1
    have := evalStep_safe (S := True) (N := True) (env := env) (oracle := oracle) (hw s (by simp)) (fun _ => trivial) hr.noSlice hr.lens
      (fun v hv _ => hs v hv) out t hf
    rw [h1] at this
    exact this

/-- The steps of a path without slices on the concatenation of two result sets. -/
theorem evalSteps_cat {o1 o2 o3 : Oracle} (hv1 : o1.Valid) (hv2 : o2.Valid) (hv3 : o3.Valid) : ∀ (p : Path), p.WF → p.NoRoot → p.NoKeys →
    (∀ s ∈ p, ¬ s.HasSlice) → (∀ s ∈ p, s.op = .filter ∨ s.op = .nestFilter → IgnoresNull env s) →
    ∀ (a b : GoSlice) (t1 t2 t3 : Nat), (∀ v ∈ a.elems, From True root v) → (∀ v ∈ b.elems, From True root v) →
    ∀ (oa ob : GoSlice) (ta tb : Nat), evalSteps env o1 root p a t1 = .ok (oa, ta) → evalSteps env o2 root p b t2 = .ok (ob, tb) →
    ∃ o t, evalSteps env o3 root p (some (a.elems ++ b.elems)) t3 = .ok (o, t) ∧ o.elems.Perm (oa.elems ++ ob.elems)
  | [], _, _, _, _, _, a, b, t1, t2, t3, _, _, oa, ob, ta, tb, h1, h2 => by
    unfold evalSteps at h1 h2 ⊢
    cases h1; cases h2
    exact ⟨_, _, rfl, .refl _⟩
  | s :: r, hw, hn, hk, hno, hig, a, b, t1, t2, t3, ha, hb, oa, ob, ta, tb, h1, h2 => by
    unfold evalSteps at h1 h2 ⊢
    obtain ⟨⟨a1, u1⟩, e1, h1⟩ := bind_eq_ok h1
    obtain ⟨⟨b1, u2⟩, e2, h2⟩ := bind_eq_ok h2
    have hs : ∀ v ∈ s.args, v.SlicesOk root := by
      intro v hvm
      cases v with
      | slice sl => exact absurd ⟨sl, hvm⟩ (hno s (by simp))
      | _ => trivial
    have hws := hw s (by simp)
    have hnull : s.op = .filter ∨ s.op = .nestFilter → NullAddsNothing env root s := fun h =>
      nullAddsNothing_of_ignores hws (hn s (by simp)) h (hig s (by simp) h)
    have hel : ∀ {o : Oracle} {x : GoSlice} {t : Nat} {y : GoSlice × Nat}, evalStep env o root s x t = .ok y →
        ∃ y', evalStep env o root s (some x.elems) t = .ok y' ∧ y'.1.elems = y.1.elems := by
      intro o x t y h
      have := evalStep_shift (env := env) (oracle := o) (oracle' := o) (root := root) (root' := root) (t := t) (t' := t)
        (fun _ => rfl) (s := s) (fun _ _ => .inr rfl) (out := x) (out' := some x.elems) rfl 0
      rw [Nat.add_zero, h] at this
      cases hy : evalStep env o root s (some x.elems) t with
      | ok y' => rw [hy] at this; exact ⟨y', rfl, this.1.symm⟩
      | _ => rw [hy] at this; exact this.elim
    obtain ⟨⟨a2, u1'⟩, e1', he1⟩ := hel e1
    obtain ⟨⟨b2, u2'⟩, e2', he2⟩ := hel e2
    dsimp only at he1 he2
    obtain ⟨o, t, e3, hp⟩ := evalStep_cat hr.noSlice hr.lens hws (hk s (by simp)) hs (hno s (by simp)) hv1 hv2 hv3 ha hb t1 t2 t3
      (fun h _ => .inr (hnull (.inl h))) (fun h _ => .inr (hnull (.inl h))) (fun h _ => .inr (hnull (.inr h)))
      (fun h _ => .inr (hnull (.inr h))) e1' e2'
    have hsafe : ∀ {o : Oracle} {x : GoSlice} {t : Nat} {y : GoSlice × Nat}, (∀ v ∈ x.elems, From True root v) →
        evalStep env o root s x t = .ok y → ∀ v ∈ y.1.elems, From True root v := by
      intro o x t y hx h
      have := evalStep_safe (S := True) (N := True) (env := env) (oracle := o) hws (fun _ => trivial) hr.noSlice hr.lens
        (fun v hv _ => hs v hv) x t hx
      rw [h] at this
      exact this
    have hfa := hsafe ha e1
    have hfb := hsafe hb e2
    have hwr : Path.WF r := fun x hx => hw x (by simp [hx])
    have hkr : Path.NoKeys r := fun x hx => hk x (by simp [hx])
    have hnor : ∀ s ∈ r, ¬ s.HasSlice := fun x hx => hno x (by simp [hx])
    obtain ⟨o', t', e4, hp'⟩ := evalSteps_cat hv1 hv2 hv3 r hwr (fun x hx => hn x (by simp [hx])) hkr hnor
      (fun x hx => hig x (by simp [hx])) a1 b1 u1 u2 t hfa hfb oa ob ta tb h1 h2
    rw [e3]
    simp only [Res.bind_ok]
    rw [he1, he2] at hp
    have hal := evalSteps_perm (env := env) hr hv3 hv3 r hwr hkr hnor (some (a1.elems ++ b1.elems)) o t t (by
      intro v hv
      rcases List.mem_append.1 hv with h | h
      · exact hfa v h
      · exact hfb v h) hp.symm
    rcases hal with ⟨x, tx, x', tx', g1, g2, hpx⟩ | ⟨e, e', g1, g2⟩
    · rw [e4] at g1
      cases g1
      exact ⟨_, _, g2, hpx.symm.trans hp'⟩
    · rw [e4] at g1; cases g1

end path

end JP
