import Verif.Proof.RunHeight
/-!
Exactly how deep `walkdown` goes.
-/
namespace JP
open Spec

theorem levels_scalar {v : V} (h : ¬ isStructure v = true) : levels v = 0 := by
  cases v <;> simp [isStructure, levels] at h ⊢

mutual
theorem dWalkdown_fits (ord : Ord) : ∀ (v : V) (loc : List Nat) (d : Nat), isStructure v = true → levels v ≤ d →
    dWalkdown ord loc v d = .ok (walkdown ord loc v)
  | .arr xs, loc, 0, _, h => absurd h (by simp [levels])
  | .obj kvs, loc, 0, _, h => absurd h (by simp [levels])
  | .arr xs, loc, d + 1, _, h => by
    simp only [levels] at h
    rw [dWalkdown, walkdown]
    show (dWalkElems ord loc 0 xs d >>= _) = _
    rw [dWalkElems_fits ord xs loc 0 d (by omega)]
    rfl
  | .obj kvs, loc, d + 1, _, h => by
    simp only [levels] at h
    rw [dWalkdown, walkdown]
    show (gather (permute (ord loc kvs.length) (dWalkMembers ord loc 0 kvs d)) >>= _) = _
    have : permute (ord loc kvs.length) ((walkMembers ord loc 0 kvs).map Res.ok) =
        (permute (ord loc kvs.length) (walkMembers ord loc 0 kvs)).map (Res.ok (ε := RErr)) := by
      unfold permute
      rw [List.map_filterMap]
      congr 1
      funext i
      simp
    rw [dWalkMembers_fits ord kvs loc 0 d (by omega), this, gather_ok]
    rfl
  | .null, _, _, h, _ => by simp [isStructure] at h
  | .bool _, _, _, h, _ => by simp [isStructure] at h
  | .gint _, _, _, h, _ => by simp [isStructure] at h
  | .int _, _, _, h, _ => by simp [isStructure] at h
  | .float _, _, _, h, _ => by simp [isStructure] at h
  | .str _, _, _, h, _ => by simp [isStructure] at h
  | .num _, _, _, h, _ => by simp [isStructure] at h
  | .name _, _, _, h, _ => by simp [isStructure] at h
  | .re _, _, _, h, _ => by simp [isStructure] at h
  | .slice _, _, _, h, _ => by simp [isStructure] at h
  | .err _, _, _, h, _ => by simp [isStructure] at h
theorem dWalkElems_fits (ord : Ord) : ∀ (xs : List V) (loc : List Nat) (i d : Nat), levelss xs ≤ d →
    dWalkElems ord loc i xs d = .ok (walkElems ord loc i xs)
  | [], loc, i, d, _ => by rw [dWalkElems, walkElems]
  | v :: r, loc, i, d, h => by
    simp only [levelss] at h
    rw [dWalkElems, walkElems, dWalkElems_fits ord r loc (i + 1) d (by omega)]
    by_cases hs : isStructure v = true
    · rw [if_pos hs, if_pos hs, dWalkdown_fits ord v (i :: loc) d hs (by omega)]; rfl
    · rw [if_neg hs, if_neg hs]; rfl
theorem dWalkMembers_fits (ord : Ord) : ∀ (kvs : List (Bytes × V)) (loc : List Nat) (i d : Nat), levelsm kvs ≤ d →
    dWalkMembers ord loc i kvs d = (walkMembers ord loc i kvs).map .ok
  | [], loc, i, d, _ => by rw [dWalkMembers, walkMembers]; rfl
  | (_, v) :: r, loc, i, d, h => by
    simp only [levelsm] at h
    rw [dWalkMembers, walkMembers, dWalkMembers_fits ord r loc (i + 1) d (by omega)]
    by_cases hs : isStructure v = true
    · rw [if_pos hs, if_pos hs, dWalkdown_fits ord v (i :: loc) d hs (by omega)]; rfl
    · rw [if_neg hs, if_neg hs]; rfl
end

theorem gather_overflow : ∀ (l : List (Res RErr (List V))), (∀ x ∈ l, (∃ vs, x = .ok vs) ∨ x = .panic "stack overflow") →
    .panic "stack overflow" ∈ l → gather l = .panic "stack overflow"
  | [], _, h => by cases h
  | x :: r, h, hm => by
    rcases h x (by simp) with ⟨vs, rfl⟩ | rfl
    · rw [gather]
      show (gather r >>= _) = _
      rw [gather_overflow r (fun y hy => h y (by simp [hy])) (by simpa using hm)]
      rfl
    · rfl

mutual
theorem dWalkdown_over {ord : Ord} (ho : ord.Valid) : ∀ (v : V) (loc : List Nat) (d : Nat), d < levels v →
    dWalkdown ord loc v d = .panic "stack overflow"
  | _, _, 0, _ => by rw [dWalkdown.eq_def]; rfl
  | .arr xs, loc, d + 1, h => by
    simp only [levels] at h
    rw [dWalkdown]
    show (dWalkElems ord loc 0 xs d >>= _) = _
    rw [dWalkElems_over ho xs loc 0 d (by omega)]
    rfl
  | .obj kvs, loc, d + 1, h => by
    simp only [levels] at h
    rw [dWalkdown]
    show (gather (permute (ord loc kvs.length) (dWalkMembers ord loc 0 kvs d)) >>= _) = _
    obtain ⟨h1, h2, h3⟩ := dWalkMembers_over ho kvs loc 0 d
    have hp := permute_perm (p := ord loc kvs.length) (xs := dWalkMembers ord loc 0 kvs d) (by rw [h3]; exact ho loc kvs.length)
    rw [gather_overflow _ (fun x hx => h1 x (hp.mem_iff.1 hx)) (hp.mem_iff.2 (h2 (by omega)))]
    rfl
  | .null, _, d + 1, h => absurd h (by simp [levels])
  | .bool _, _, d + 1, h => absurd h (by simp [levels])
  | .gint _, _, d + 1, h => absurd h (by simp [levels])
  | .int _, _, d + 1, h => absurd h (by simp [levels])
  | .float _, _, d + 1, h => absurd h (by simp [levels])
  | .str _, _, d + 1, h => absurd h (by simp [levels])
  | .num _, _, d + 1, h => absurd h (by simp [levels])
  | .name _, _, d + 1, h => absurd h (by simp [levels])
  | .re _, _, d + 1, h => absurd h (by simp [levels])
  | .slice _, _, d + 1, h => absurd h (by simp [levels])
  | .err _, _, d + 1, h => absurd h (by simp [levels])
theorem dWalkElems_over {ord : Ord} (ho : ord.Valid) : ∀ (xs : List V) (loc : List Nat) (i d : Nat), d < levelss xs →
    dWalkElems ord loc i xs d = .panic "stack overflow"
  | [], _, _, _, h => absurd h (by simp [levelss])
  | v :: r, loc, i, d, h => by
    simp only [levelss] at h
    rw [dWalkElems]
    by_cases hs : isStructure v = true
    · rw [if_pos hs]
      by_cases hv : d < levels v
      · rw [dWalkdown_over ho v (i :: loc) d hv]; rfl
      · rw [dWalkdown_fits ord v (i :: loc) d hs (by omega), dWalkElems_over ho r loc (i + 1) d (by omega)]; rfl
    · have := levels_scalar hs
      rw [if_neg hs, dWalkElems_over ho r loc (i + 1) d (by omega)]; rfl
theorem dWalkMembers_over {ord : Ord} (ho : ord.Valid) : ∀ (kvs : List (Bytes × V)) (loc : List Nat) (i d : Nat),
    (∀ x ∈ dWalkMembers ord loc i kvs d, (∃ vs, x = .ok vs) ∨ x = .panic "stack overflow") ∧
    (d < levelsm kvs → .panic "stack overflow" ∈ dWalkMembers ord loc i kvs d) ∧ (dWalkMembers ord loc i kvs d).length = kvs.length
  | [], loc, i, d => by rw [dWalkMembers]; exact ⟨by simp, fun h => absurd h (by simp [levelsm]), rfl⟩
  | (_, v) :: r, loc, i, d => by
    obtain ⟨h1, h2, h3⟩ := dWalkMembers_over ho r loc (i + 1) d
    rw [dWalkMembers]
    simp only [levelsm, List.length_cons, h3, List.mem_cons, List.forall_mem_cons]
    by_cases hs : isStructure v = true
    · rw [if_pos hs]
      by_cases hv : d < levels v
      · rw [dWalkdown_over ho v (i :: loc) d hv]
        exact ⟨by rintro x (rfl | hx); exacts [.inr rfl, h1 x hx], fun _ => .inl rfl, trivial⟩
      · rw [dWalkdown_fits ord v (i :: loc) d hs (by omega)]
        exact ⟨by rintro x (rfl | hx); exacts [.inl ⟨_, rfl⟩, h1 x hx], fun h => .inr (h2 (by omega)), trivial⟩
    · have := levels_scalar hs
      rw [if_neg hs]
      exact ⟨by rintro x (rfl | hx); exacts [.inl ⟨_, rfl⟩, h1 x hx], fun h => .inr (h2 (by omega)), trivial⟩
end

theorem dWalker_one_fits (ord : Ord) (v : V) (d : Nat) (h : levels v ≤ d) : dWalker ord d 0 [v] = .ok (walker ord 0 [v]) := by
  unfold dWalker walker
  by_cases hs : isStructure v = true
  · rw [if_pos hs, if_pos hs, dWalkdown_fits ord v [0] d hs h]; rfl
  · rw [if_neg hs, if_neg hs]; rfl

/-- A run from which the first order is not reached again, when no other order calls `walkdown` or `eqVal`. -/
theorem dRun_calm {d : Nat} {env : Env} {oracle : Oracle} {pick : MState → Ord} {prog : Program} {root : V}
    (hc : ∀ s o, prog.orders[s.pc]? = some o → s.pc ≠ 0 → dStep d env oracle pick prog root o s = step env oracle prog root o s ∧
      ∀ s', step env oracle prog root o s = .ok s' → s'.pc ≠ 0) {r : Res RErr GoSlice} :
    ∀ (f : Nat) (s : MState), s.pc ≠ 0 → runFuel env oracle prog root f s = some r → dRun d env oracle pick prog root s = some r
  | 0, s, _, h => by simp [runFuel] at h
  | f + 1, s, h0, h => by
    rw [runFuel] at h
    rw [dRun]
    cases ho : prog.orders[s.pc]? with
    | none => rw [ho] at h; exact h
    | some o =>
      rw [ho] at h
      obtain ⟨h1, h2⟩ := hc s o ho h0
      dsimp only at h ⊢
      rw [h1]
      cases hs : step env oracle prog root o s with
      | ok s' => rw [hs] at h; exact dRun_calm hc f s' (h2 s' hs) h
      | err e => rw [hs] at h; exact h
      | panic m => rw [hs] at h; exact h
      | stuck => rw [hs] at h; exact h

theorem dStep_calm (d : Nat) (env : Env) (oracle : Oracle) (pick : MState → Ord) (prog : Program) (root : V) (o : Order) (s : MState)
    (h : goesDown o = false) : dStep d env oracle pick prog root o s = step env oracle prog root o s := by
  unfold dStep step
  unfold goesDown at h
  cases ho : Op.ofNat? o.opNum with
  | none => rfl
  | some op => rw [ho] at h; cases op <;> first | rfl | simp at h

theorem branch_pos {size : Nat} {t : Int64} {s s' : MState} (h : branch size t s = .ok s') : s'.pc ≠ 0 := by
  unfold branch at h
  split at h
  · cases h
  · next hb =>
    simp only [Bool.or_eq_true, decide_eq_true_eq, not_or, Int64.not_le] at hb
    cases h
    have := Int64.lt_iff_toInt_lt.1 hb.1
    simp at this
    show t.toInt.toNat ≠ 0
    omega

theorem exec_pos {env : Env} {oracle : Oracle} {prog : Program} {root : V} {o : Order} {op : Op} {s s' : MState} (h0 : s.pc ≠ 0)
    (h : exec env oracle prog root o op s = .ok s') : s'.pc ≠ 0 := by
  have hval : ∀ s', pushVal prog o s = .ok s' → s'.pc ≠ 0 := by
    intro s' h
    unfold pushVal at h
    split at h
    · cases h
    · split at h
      · cases h; exact h0
      · cases h
  have hloop : ∀ {size t vals} {s s' : MState}, s.pc ≠ 0 → looptop size t vals s = .ok s' → s'.pc ≠ 0 := by
    intro size t vals s s' h0 h
    unfold looptop at h
    split at h
    · exact branch_pos h
    · cases h; exact h0
  cases op <;> unfold exec at h <;> dsimp only at h <;> first
    | (cases h; done)
    | exact hval _ h
    | (cases h; exact h0)
    | (split at h <;> first | (cases h; done) | (cases h; exact h0) | exact hval _ h | exact branch_pos h | exact hloop (by exact h0) h)
    | (split at h
       · cases h
       · cases h; exact h0
       · split at h
         · cases h
         · exact branch_pos h)
    | (split at h
       · cases h
       · split at h
         · cases h; exact h0
         · first
           | (cases h; done)
           | (obtain ⟨out, _, h⟩ := bind_eq_ok h; cases h; exact h0)
           | (cases h; exact h0))
    | (obtain ⟨r, hr, h⟩ := bind_eq_ok h
       obtain ⟨out, _, h⟩ := bind_eq_ok h
       cases h
       exact h0)
    | (obtain ⟨out, _, h⟩ := bind_eq_ok h
       cases h
       exact h0)
    | (split at h
       · split at h
         · obtain ⟨v, _, h⟩ := bind_eq_ok h
           cases h
           exact h0
         · cases h
       · cases h)
    | (obtain ⟨r, hr, h⟩ := bind_eq_ok h
       split at h
       · obtain ⟨v, _, h⟩ := bind_eq_ok h
         cases h
         exact h0
       · cases h
       · cases h)

theorem step_pos {env : Env} {oracle : Oracle} {prog : Program} {root : V} {o : Order} {s s' : MState}
    (h : step env oracle prog root o s = .ok s') : s'.pc ≠ 0 := by
  unfold step at h
  dsimp only at h
  split at h
  · exact exec_pos (by simp) h
  · cases h

/-- A program that begins with a descent and goes down nowhere else. -/
theorem dRun_descent {d : Nat} {env : Env} {oracle : Oracle} (ho : ∀ t, (oracle t).Valid) {pick : MState → Ord} {prog : Program} {root : V}
    {o : Order} {e : Int64} {rest : List Order} (h0 : prog.orders = o :: rest) (hn : Op.ofNat? o.opNum = some .nest) (hp : o.pc = some e)
    (hr : ∀ x ∈ rest, goesDown x = false) {r : Res RErr GoSlice} (he : run env oracle prog root (.init root) = some r) :
    dRun d env oracle pick prog root (.init root) = if d < levels root then some (.panic "stack overflow") else some r := by
  have hi : prog.orders[(MState.init root).pc]? = some o := by rw [h0]; rfl
  have hd : dStep d env oracle pick prog root o (.init root) = (dWalker (oracle 0) d 0 [root] >>= fun vals =>
      looptop prog.orders.length e vals ⟨some [root], .null, [], 1, [], 1⟩) := by
    unfold dStep
    rw [hn]
    dsimp only [dExec]
    rw [hp]
    rfl
  by_cases h : d < levels root
  · rw [if_pos h]
    have hs : isStructure root = true := Classical.byContradiction fun hs => by rw [levels_scalar hs] at h; omega
    refine dRun_panic hi ?_
    rw [hd, dWalker, if_pos hs, dWalkdown_over (ho 0) root [0] d h]
    rfl
  · rw [if_neg h]
    have hs : dStep d env oracle pick prog root o (.init root) = step env oracle prog root o (.init root) := by
      rw [hd, dWalker_one_fits _ root d (by omega)]
      unfold step
      dsimp only
      rw [hn]
      dsimp only [exec]
      rw [hp]
      rfl
    obtain ⟨f, hf⟩ := run_eq_some.1 he
    cases f with
    | zero => simp [runFuel] at hf
    | succ f =>
      rw [runFuel, hi] at hf
      rw [dRun, hi]
      dsimp only at hf ⊢
      rw [hs]
      cases hst : step env oracle prog root o (.init root) with
      | ok s' =>
        rw [hst] at hf
        refine dRun_calm (fun s x hx hne => ⟨dStep_calm _ _ _ _ _ _ _ _ (hr x ?_), fun s' hs' => step_pos hs'⟩) f s' (step_pos hst) hf
        rw [h0] at hx
        obtain ⟨n, hn'⟩ := Nat.exists_eq_succ_of_ne_zero hne
        rw [hn'] at hx
        exact List.mem_of_getElem? (by simpa using hx)
      | err e => rw [hst] at hf; exact hf
      | panic m => rw [hst] at hf; exact hf
      | stuck => rw [hst] at hf; exact hf

end JP
