import Verif.Proof.Conc.Control
import Verif.Proof.Api
/-!
The loops of a compiled program: none is inside another, each is entered at its top, and the machine is in
at most one of them.
-/
namespace JP.Conc

/-- An order that neither begins nor ends a loop. -/
def PlainO (o : Order) : Prop := ∀ op, Op.ofNat? o.opNum = some op → NoLoop op

theorem plain_small {op : Op} (h : NoLoop op) (n : Int64) : PlainO (mkSmall op n) := by
  intro op' ho
  rw [mkSmall_opNum, Op.ofNat?_toNat] at ho
  cases ho; exact h

theorem plain_order {op : Op} (h : NoLoop op) (i : UInt32) (hi : i.toNat < 2 ^ 22) : PlainO (mkOrder op i) := by
  intro op' ho
  rw [mkOrder_opNum _ _ (by omega), Op.ofNat?_toNat] at ho
  cases ho; exact h

/-- The code generator appended orders that neither begin nor end a loop. -/
def Adds (p p' : Program) : Prop := ∃ os, p'.orders = p.orders ++ os ∧ ∀ o ∈ os, PlainO o

theorem Adds.trans {p q r : Program} (h : Adds p q) (h' : Adds q r) : Adds p r := by
  obtain ⟨a, h1, h2⟩ := h
  obtain ⟨b, h3, h4⟩ := h'
  refine ⟨a ++ b, by rw [h3, h1, List.append_assoc], ?_⟩
  intro o ho
  rcases List.mem_append.1 ho with ho | ho
  · exact h2 o ho
  · exact h4 o ho

theorem Adds.refl (p : Program) : Adds p p := ⟨[], by simp, by simp⟩

theorem adds_asm {o : Order} (h : PlainO o) (p : Program) : Adds p (asm o p) :=
  ⟨[o], rfl, by simpa using h⟩

theorem codeOp_adds {op : Op} (ho : NoLoop op) {v : Option PVal} {p p' : Program} (hp : p.Small)
    (h : codeOp op v p = .ok p') : Adds p p' := by
  cases v with
  | none => unfold codeOp at h; cases h; exact adds_asm (plain_small ho _) p
  | some v =>
    obtain ⟨o, h1, _, _, h4⟩ := codeOp_ok h hp
    refine ⟨[o], h1, ?_⟩
    intro o' ho'
    simp only [List.mem_singleton] at ho'
    subst ho'
    rcases h4 with ⟨n, _, _, rfl⟩ | ⟨i, w, rfl, hi, _⟩
    · exact plain_small ho _
    · exact plain_order ho _ hi

theorem KShape.noLoop {op : Op} {kids : List Expr} (h : KShape op kids) : NoLoop op := by
  rcases h with ⟨h, _⟩ | ⟨h, _⟩ | ⟨rfl, _⟩ | rfl | ⟨rfl, _⟩
  · cases op <;> simp [Op.isUnary] at h <;> trivial
  · cases op <;> simp [Op.isBinary] at h <;> trivial
  all_goals trivial

theorem WF_inner {op : Op} {kids : List Expr} (h : Expr.WF (.inner op kids)) :
    Exprs.WF kids ∧ KShape op kids := by
  cases h with
  | unary _ e h1 h2 => exact ⟨.cons _ _ h2 .nil, Or.inl ⟨h1, e, rfl⟩⟩
  | binary _ a b h1 h2 h3 => exact ⟨.cons _ _ h2 (.cons _ _ h3 .nil), Or.inr (Or.inl ⟨h1, a, b, rfl⟩)⟩
  | dot a n h1 => exact ⟨.cons _ _ h1 (.cons _ _ (.name _) .nil), Or.inr (Or.inr (Or.inl ⟨rfl, a, n, rfl⟩))⟩
  | array _ h => exact ⟨h, Or.inr (Or.inr (Or.inr (Or.inl rfl)))⟩
  | call f es h => exact ⟨.cons _ _ (.name _) h, Or.inr (Or.inr (Or.inr (Or.inr ⟨rfl, f, es, rfl⟩)))⟩

mutual
theorem codeExpr_adds : ∀ (e : Expr) (_ : e.WF) {p p' : Program} (_ : p.Small), codeExpr e p = .ok p' → Adds p p'
  | .int n, _, p, p', hp, h => by
    unfold codeExpr at h
    split at h
    · cases h; exact adds_asm (plain_small (op := .int) trivial _) _
    · exact codeOp_adds (op := .int) trivial hp h
  | .float f, _, p, p', hp, h => by unfold codeExpr at h; exact codeOp_adds (op := .real) trivial hp h
  | .str f, _, p, p', hp, h => by unfold codeExpr at h; exact codeOp_adds (op := .string) trivial hp h
  | .name f, _, p, p', hp, h => by unfold codeExpr at h; exact codeOp_adds (op := .id) trivial hp h
  | .re f, _, p, p', hp, h => by unfold codeExpr at h; exact codeOp_adds (op := .re) trivial hp h
  | .bool b, _, p, p', hp, h => by unfold codeExpr at h; cases h; exact adds_asm (plain_small (op := .bool) trivial _) _
  | .null, _, p, p', hp, h => by unfold codeExpr at h; exact codeOp_adds (op := .null) trivial hp h
  | .current, _, p, p', hp, h => by unfold codeExpr at h; exact codeOp_adds (op := .current) trivial hp h
  | .root, _, p, p', hp, h => by unfold codeExpr at h; exact codeOp_adds (op := .root) trivial hp h
  | .inner op kids, hw, p, p', hp, h => by
    obtain ⟨hk, hs⟩ := WF_inner hw
    unfold codeExpr at h
    rw [if_neg (by rw [hs.notLeaf]; simp)] at h
    obtain ⟨q, hq, h⟩ := bind_eq_ok h
    cases h
    exact (codeKids_adds kids hk hp hq).trans (adds_asm (plain_small (KShape.noLoop hs) _) _)
theorem codeKids_adds : ∀ (es : List Expr) (_ : Exprs.WF es) {p p' : Program} (_ : p.Small),
    codeKids es p = .ok p' → Adds p p'
  | [], _, p, p', _, h => by unfold codeKids at h; cases h; exact .refl _
  | e :: r, hw, p, p', hp, h => by
    unfold codeKids at h
    obtain ⟨q, hq, h⟩ := bind_eq_ok h
    cases hw with
    | cons _ _ h1 h2 =>
      exact (codeExpr_adds e h1 hp hq).trans (codeKids_adds r h2 ((codeExpr_grows e hq).small hp) h)
end

theorem codeVal_adds {v : Val} (hv : v.WF) {p p' : Program} (hp : p.Small)
    (h : codeVal (valOp v) v p = .ok p') : Adds p p' := by
  cases v with
  | expr e => exact codeExpr_adds e hv hp h
  | name s => exact codeOp_adds (op := .id) (v := some (.name s)) trivial hp h
  | int s => exact codeOp_adds (op := .int) (v := some (.int s)) trivial hp h
  | str s => exact codeOp_adds (op := .string) (v := some (.str s)) trivial hp h
  | slice s => exact codeOp_adds (op := .bounds) (v := some (.slice s)) trivial hp h

theorem codeArgs_adds : ∀ (vs : List Val) (_ : ∀ v ∈ vs, v.WF) {p p' : Program} (_ : p.Small),
    codeArgs vs p = .ok p' → Adds p p'
  | [], _, p, p', _, h => by unfold codeArgs at h; cases h; exact .refl _
  | v :: r, hw, p, p', hp, h => by
    unfold codeArgs at h
    obtain ⟨q, hq, h⟩ := bind_eq_ok h
    exact (codeVal_adds (hw v (by simp)) hp hq).trans
      (codeArgs_adds r (fun v hv => hw v (by simp [hv])) ((codeVal_grows hq).small hp) h)

theorem codeStep_adds {s : JP.Step} (hw : s.WF) {p p' : Program} (hp : p.Small) (h : codeStep s p = .ok p') :
    Adds p p' := by
  have hop : NoLoop s.op := by
    have := hw.2
    cases ho : s.op <;> rw [ho] at this <;> first | trivial | exact this.elim
  unfold codeStep at h
  obtain ⟨q, hq, h⟩ := bind_eq_ok h
  cases h
  exact (codeArgs_adds _ hw.1 hp hq).trans (adds_asm (plain_small hop _) _)

/-- Code from order `n` on: single orders, and loops with a plain body. -/
inductive Loops : Nat → List Order → Prop where
  | nil (n : Nat) : Loops n []
  | plain (n : Nat) (o : Order) (os : List Order) (h : PlainO o) (hs : Loops (n + 1) os) : Loops n (o :: os)
  | loop (n : Nat) (intro : Op) (hi : intro = .for_ ∨ intro = .nest) (body os : List Order) (hb : ∀ o ∈ body, PlainO o)
      (hs : Loops (n + body.length + 2) os) :
      Loops n (mkSmall intro (Int64.ofNat (n + body.length + 2)) :: body ++ mkSmall .rep (Int64.ofNat (n + 1)) :: os)

theorem loops_plain : ∀ (body : List Order) (n : Nat) (os : List Order), (∀ o ∈ body, PlainO o) → Loops (n + body.length) os →
    Loops n (body ++ os)
  | [], n, os, _, h => by simpa using h
  | o :: r, n, os, hb, h => by
    refine .plain n o _ (hb o (by simp)) (loops_plain r (n + 1) os (fun o ho => hb o (by simp [ho])) ?_)
    have : n + 1 + r.length = n + (o :: r).length := by simp; omega
    rw [this]; exact h

theorem codeLoop_loops {s : JP.Step} (hw : s.WF) {intro : Op} (hi : intro = .for_ ∨ intro = .nest)
    {p p' : Program} (hp : p.Small) (h : codeLoop s intro p = .ok p') :
    ∃ os, p'.orders = p.orders ++ os ∧ ∀ rest, Loops p'.orders.length rest → Loops p.orders.length (os ++ rest) := by
  unfold codeLoop at h
  simp only at h
  obtain ⟨q, hq, h⟩ := bind_eq_ok h
  cases h
  obtain ⟨body, h1, h2⟩ := codeStep_adds hw (by simpa [asm, Program.Small] using hp) hq
  simp only [asm] at h1
  refine ⟨mkSmall intro (Int64.ofNat (p.orders.length + body.length + 2)) :: body ++
    [mkSmall .rep (Int64.ofNat (p.orders.length + 1))], ?_, ?_⟩
  · simp only [patch, asm, h1, List.length_append, List.length_cons, List.length_nil, List.append_assoc]
    rw [List.set_append_right _ _ (Nat.le_refl _)]
    simp only [Nat.sub_self, List.cons_append, List.nil_append, List.set_cons_zero]
    congr 4
    omega
  · intro rest hr
    have := Loops.loop p.orders.length intro hi body rest h2 (by
      have hl : (patch p.orders.length
        (mkSmall intro (Int64.ofNat (asm (mkSmall .rep (Int64.ofNat (asm (mkSmall intro 0) p).orders.length)) q).orders.length))
        (asm (mkSmall .rep (Int64.ofNat (asm (mkSmall intro 0) p).orders.length)) q)).orders.length
        = p.orders.length + body.length + 2 := by
        simp [patch, asm, h1]; omega
      rw [← hl]; exact hr)
    simpa using this

theorem codePathStep_loops {s : JP.Step} (hw : s.WF) {p p' : Program} (hp : p.Small)
    (h : codePathStep s p = .ok p') :
    ∃ os, p'.orders = p.orders ++ os ∧ ∀ rest, Loops p'.orders.length rest → Loops p.orders.length (os ++ rest) := by
  have hw2 := hw.2
  have stp : codeStep s p = .ok p' →
      ∃ os, p'.orders = p.orders ++ os ∧ ∀ rest, Loops p'.orders.length rest → Loops p.orders.length (os ++ rest) := by
    intro h
    obtain ⟨os, h1, h2⟩ := codeStep_adds hw hp h
    refine ⟨os, h1, fun rest hr => loops_plain os _ rest h2 ?_⟩
    rw [h1, List.length_append] at hr
    exact hr
  unfold codePathStep at h
  cases hop : s.op <;> rw [hop] at h hw2 <;> simp only at hw2 <;>
    simp only [Op.isLeaf, Op.hasVal, Bool.and_false, Bool.and_true, Bool.false_eq_true, if_false] at h
  all_goals first
    | exact stp h
    | exact codeLoop_loops hw (.inl rfl) hp h
    | exact codeLoop_loops hw (.inr rfl) hp h

theorem codePath_loops : ∀ (path : Path) (_ : path.WF) {p p' : Program} (_ : p.Small),
    codePath path p = .ok p' → ∃ os, p'.orders = p.orders ++ os ∧ Loops p.orders.length os
  | [], _, p, p', _, h => by unfold codePath at h; cases h; exact ⟨[], by simp, .nil _⟩
  | s :: r, hw, p, p', hp, h => by
    unfold codePath at h
    obtain ⟨q, hq, h⟩ := bind_eq_ok h
    obtain ⟨os, h1, h2⟩ := codePathStep_loops (hw s (by simp)) hp hq
    obtain ⟨os', h3, h4⟩ := codePath_loops r (fun v hv => hw v (by simp [hv])) ((codePathStep_grows hq).small hp) h
    exact ⟨os ++ os', by rw [h3, h1, List.append_assoc], h2 _ h4⟩

/-- The loops of a compiled program. -/
theorem compile_loops {env : Env} {text : Bytes} {p : JSONPath} (h : Compile env text = .ok p) : Loops 0 p.prog.orders := by
  obtain ⟨path, _, hw, hc, _⟩ := Compile_ok h
  obtain ⟨os, h1, h2⟩ := codePath_loops path hw (by simp [Program.Small]) hc
  simp at h1
  rw [h1]; exact h2

/-! ## The machine -/

/-- Orders that neither begin nor end a loop leave the channels alone. -/
theorem exec_keeps {env : Env} {oracle : Oracle} {prog : Program} {root : V} {o : Order} {op : Op} {s s' : MState}
    (hop : NoLoop op) (h : JP.exec env oracle prog root o op s = .ok s') : s'.values = s.values ∧ s'.pc = s.pc := by
  have pushVal_keeps : ∀ {s s' : MState}, JP.pushVal prog o s = .ok s' → s'.values = s.values ∧ s'.pc = s.pc := by
    intro s s' h
    unfold JP.pushVal at h
    split at h
    · cases h
    · split at h <;> cases h
      exact ⟨rfl, rfl⟩
  cases op <;> simp only [NoLoop] at hop <;> simp only [JP.exec] at h
  all_goals
    repeat' first
      | exact pushVal_keeps h
      | (cases h; done)
      | (cases h; exact ⟨rfl, rfl⟩)
      | (obtain ⟨_, _, h⟩ := bind_eq_ok h)
      | split at h

/-- Where the machine is: outside all loops, or in one of them, with one channel. -/
inductive At (orders : List Order) (s : MState) : Prop where
  | out (pre os : List Order) (h1 : orders = pre ++ os) (h2 : pre.length = s.pc) (h3 : Loops s.pc os) (h4 : s.values = [])
  | body (pre body os : List Order) (intro : Op)
      (h1 : orders = pre ++ (mkSmall intro (Int64.ofNat (pre.length + body.length + 2)) :: body ++
        mkSmall .rep (Int64.ofNat (pre.length + 1)) :: os))
      (h2 : ∀ o ∈ body, PlainO o) (h3 : Loops (pre.length + body.length + 2) os) (h4 : pre.length + 1 ≤ s.pc)
      (h5 : s.pc ≤ pre.length + 1 + body.length) (vs : List V) (h6 : s.values = [vs])

/-- At the end of the program no channel is left. -/
theorem At.end_ {orders : List Order} {s : MState} (h : At orders s) (he : orders[s.pc]? = none) : s.values = [] := by
  cases h with
  | out pre os h1 h2 h3 h4 => exact h4
  | body pre body os intro h1 h2 h3 h4 h5 vs h6 =>
    rw [List.getElem?_eq_none_iff] at he
    rw [h1] at he
    simp at he
    omega

theorem small_pc {op : Op} {n : Nat} (hn : n < 2 ^ 22) : (mkSmall op (Int64.ofNat n)).pc = some (Int64.ofNat n) := by
  rw [mkSmall_pc, mkSmall_smallInt _ _ (by rw [Int64.small_iff, Int64.toInt_ofNat_of_lt (by omega)]; omega)]

theorem step_plain {env : Env} {oracle : Oracle} {prog : Program} {root : V} {o : Order} {s s' : MState} (ho : PlainO o)
    (h : step env oracle prog root o s = .ok s') : s'.values = s.values ∧ s'.pc = s.pc + 1 := by
  unfold step at h
  cases hop : Op.ofNat? o.opNum with
  | none => simp only [hop] at h; cases h
  | some op => simp only [hop] at h; exact exec_keeps (ho op hop) h

theorem At.step {env : Env} {oracle : Oracle} {prog : Program} {root : V} {o : Order} {s s' : MState}
    (ha : At prog.orders s) (hsz : prog.orders.length < 2 ^ 22) (ho : prog.orders[s.pc]? = some o)
    (h : JP.step env oracle prog root o s = .ok s') : At prog.orders s' := by
  cases ha with
  | out pre os h1 h2 h3 h4 =>
    cases h3 with
    | nil =>
      rw [h1, ← h2] at ho
      simp at ho
    | plain _ o' os hp hs =>
      have : o = o' := by
        rw [h1, ← h2] at ho
        simpa using ho.symm
      subst this
      obtain ⟨k1, k2⟩ := step_plain hp h
      exact .out (pre ++ [o]) os (by simp [h1]) (by simp [k2, h2]) (by rw [k2]; exact hs) (by rw [k1, h4])
    | loop _ intro hi body os hb hs =>
      have : o = mkSmall intro (Int64.ofNat (s.pc + body.length + 2)) := by
        rw [h1, ← h2] at ho
        rw [List.getElem?_append_right (by omega), Nat.sub_self, List.cons_append, List.getElem?_cons_zero] at ho
        cases ho
        rw [h2]
      subst this
      have hlen : prog.orders.length = s.pc + body.length + 2 + os.length := by
        rw [h1]; simp [h2]; omega
      have main : ∀ vals : List V, JP.looptop prog.orders.length (Int64.ofNat (s.pc + body.length + 2)) vals
          { s with pc := s.pc + 1, tick := s.tick + 1 } = .ok s' → At prog.orders s' := by
        intro vals h
        unfold JP.looptop at h
        split at h
        · rw [branch_ok prog _ _ (by omega) (by omega) hsz] at h
          cases h
          refine .out (pre ++ (mkSmall intro (Int64.ofNat (s.pc + body.length + 2)) :: body ++
            [mkSmall .rep (Int64.ofNat (s.pc + 1))])) os ?_ ?_ hs h4
          · rw [h1]; simp
          · simp [h2]; omega
        · cases h
          exact .body pre body os intro (by rw [h1, h2]) hb (by rw [h2]; exact hs) (by simp [h2]) (by simp [h2])
            vals.tail (by simp [h4])
      rw [step_small] at h
      rcases hi with rfl | rfl
      · simp only [JP.exec, small_pc (show s.pc + body.length + 2 < 2 ^ 22 by omega)] at h
        exact main _ h
      · simp only [JP.exec, small_pc (show s.pc + body.length + 2 < 2 ^ 22 by omega)] at h
        exact main _ h
  | body pre body os intro h1 h2 h3 h4 h5 vs h6 =>
    have hlen : prog.orders.length = pre.length + body.length + 2 + os.length := by
      rw [h1]; simp; omega
    by_cases hlt : s.pc < pre.length + 1 + body.length
    · have hmem : o ∈ body := by
        rw [h1] at ho
        rw [List.getElem?_append_right (by omega), List.cons_append, List.getElem?_cons] at ho
        rw [if_neg (by omega), List.getElem?_append_left (by omega)] at ho
        exact List.mem_of_getElem? ho
      obtain ⟨k1, k2⟩ := step_plain (h2 o hmem) h
      exact .body pre body os intro h1 h2 h3 (by omega) (by omega) vs (by rw [k1, h6])
    · have hpc : s.pc = pre.length + 1 + body.length := by omega
      have : o = mkSmall .rep (Int64.ofNat (pre.length + 1)) := by
        rw [h1] at ho
        rw [List.getElem?_append_right (by omega), List.cons_append, List.getElem?_cons] at ho
        rw [if_neg (by omega), List.getElem?_append_right (by omega)] at ho
        rw [show s.pc - pre.length - 1 - body.length = 0 by omega] at ho
        simpa using ho.symm
      subst this
      rw [step_small] at h
      simp only [JP.exec, h6, small_pc (show pre.length + 1 < 2 ^ 22 by omega)] at h
      cases vs with
      | nil =>
        cases h
        refine .out (pre ++ (mkSmall intro (Int64.ofNat (pre.length + body.length + 2)) :: body ++
            [mkSmall .rep (Int64.ofNat (pre.length + 1))])) os ?_ ?_ ?_ rfl
        · rw [h1]; simp
        · simp; omega
        · simp only
          rw [hpc, show pre.length + 1 + body.length + 1 = pre.length + body.length + 2 by omega]
          exact h3
      | cons v more =>
        simp only at h
        rw [branch_ok prog _ _ (by omega) (by omega) hsz] at h
        cases h
        exact .body pre body os intro h1 h2 h3 (by simp) (by simp) more rfl

theorem Reach.at {env : Env} {oracle : Oracle} {text : Bytes} {p : JSONPath} {root : V} (hc : Compile env text = .ok p)
    (hsz : p.prog.orders.length < 2 ^ 22) {T : MState ⊕ Res RErr GoSlice} (hr : Reach env oracle p.prog root T) :
    ∀ s, T = .inl s → At p.prog.orders s := by
  induction hr with
  | init =>
    intro s hs
    cases hs
    exact .out [] p.prog.orders rfl rfl (compile_loops hc) rfl
  | step s _ ih =>
    intro s' hs
    unfold vnext at hs
    cases ho : p.prog.orders[s.pc]? with
    | none => rw [ho] at hs; cases hs
    | some o =>
      rw [ho] at hs
      simp only at hs
      cases hst : JP.step env oracle p.prog root o s with
      | ok s'' =>
        rw [hst] at hs
        cases hs
        exact (ih s rfl).step hsz ho hst
      | err x => rw [hst] at hs; cases hs
      | panic x => rw [hst] at hs; cases hs
      | stuck => rw [hst] at hs; cases hs

/-- A compiled program ends with no channel left. -/
theorem Reach.end_ {env : Env} {oracle : Oracle} {text : Bytes} {p : JSONPath} {root : V} (hc : Compile env text = .ok p)
    (hsz : p.prog.orders.length < 2 ^ 22) {r : GoSlice} {vals : List (List V)}
    (hf : From env oracle p.prog root (.inr (.ok r)) vals) : vals = [] := by
  obtain ⟨s, h1, h2, rfl⟩ := hf
  refine (h1.at hc hsz s rfl).end_ ?_
  unfold vnext at h2
  cases ho : p.prog.orders[s.pc]? with
  | none => rfl
  | some o =>
    rw [ho] at h2
    simp only at h2
    cases hst : JP.step env oracle p.prog root o s <;> rw [hst] at h2 <;> cases h2

end JP.Conc
