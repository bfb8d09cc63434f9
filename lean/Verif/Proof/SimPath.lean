import Verif.Proof.Sim
import Verif.Proof.Cost
/-! The simulation for steps, loops and whole paths. -/
set_option linter.unusedSimpArgs false
namespace JP
open Spec

section
variable (env : Env) (oracle : Oracle) (fin : Program) (root : V)
  {R : Nat → MState → Option (Res RErr GoSlice)}

theorem sim_val (hR : Runs env oracle fin root R) (hfin : ∀ w ∈ fin.vals, w.Ok) (hsz : fin.orders.length < 2 ^ 22) (v : Val) (hw : v.WF)
    {p p' : Program} (h : codeVal (valOp v) v p = .ok p') (hp : p.Small)
    (hc : Covers p.orders.length p' fin) (s : MState) (hs : s.pc = p.orders.length)
    (hst : s.stack.length ≤ s.pc) {m n : Nat} (hm : m + p.orders.length = n + p'.orders.length) :
    R m s = bindRun (evalVal env oracle root s.dot v s.tick) fun (v, t) =>
      R n { s with stack := v :: s.stack, pc := p'.orders.length, tick := t } := by
  cases v with
  | expr e => exact sim_expr env oracle fin root hR hfin hsz e hw h hp hc s hs hst hm
  | name x =>
    simp only [codeVal, valOp, Op.hasVal, Bool.not_true, Bool.false_eq_true, if_false] at h
    exact sim_const env oracle fin root hR (v := .name x) trivial hfin (by simp) (by simp) h hp hc s hs hm
  | int x =>
    simp only [codeVal, valOp, Op.hasVal, Bool.not_true, Bool.false_eq_true, if_false] at h
    exact sim_const env oracle fin root hR (v := .int x) trivial hfin (by simp) (by simp) h hp hc s hs hm
  | str x =>
    simp only [codeVal, valOp, Op.hasVal, Bool.not_true, Bool.false_eq_true, if_false] at h
    exact sim_const env oracle fin root hR (v := .str x) trivial hfin (by simp) (by simp) h hp hc s hs hm
  | slice x =>
    simp only [codeVal, valOp, Op.hasVal, Bool.not_true, Bool.false_eq_true, if_false] at h
    exact sim_const env oracle fin root hR (v := .slice x) trivial hfin (by simp) (by simp) h hp hc s hs hm

theorem sim_vals (hR : Runs env oracle fin root R) (hfin : ∀ w ∈ fin.vals, w.Ok) (hsz : fin.orders.length < 2 ^ 22) :
    ∀ (es : List Val) (_ : ∀ v ∈ es, v.WF) {p p' : Program} (_ : codeArgs es p = .ok p') (_ : p.Small)
      (_ : Covers p.orders.length p' fin) (s : MState) (_ : s.pc = p.orders.length)
      (_ : s.stack.length ≤ s.pc) {m n : Nat} (_ : m + p.orders.length = n + p'.orders.length),
    R m s = bindRun (evalVals env oracle root s.dot es s.tick) fun (vs, t) =>
      R n { s with stack := vs.reverse ++ s.stack, pc := p'.orders.length, tick := t }
  | [], _, p, p', h, hp, hc, s, hs, _, m, n, hm => by
    unfold codeArgs at h
    cases h
    have hm : m = n := by omega
    subst hm
    simp only [evalVals, bindRun_ok, List.reverse_nil, List.nil_append, ← hs]
  | e :: r, hw, p, p', h, hp, hc, s, hs, hst, m, n, hm => by
    unfold codeArgs at h
    obtain ⟨q, hq, h⟩ := bind_eq_ok h
    have hg := codeVal_grows hq
    have hg' := codeArgs_grows r h
    have hgl := hg.len
    have hgl' := hg'.len
    rw [sim_val env oracle fin root hR hfin hsz e (hw e (by simp)) hq hp (hc.left hg'.toExtends) s hs hst (m := m)
      (n := n + (p'.orders.length - q.orders.length)) (by omega)]
    unfold evalVals
    rw [bindRun_bind]
    apply bindRun_congr
    rintro ⟨v, t⟩ he
    simp only [bindRun_bind]
    rw [sim_vals hR hfin hsz r (fun v hv => hw v (by simp [hv])) h (hg.small hp) (hc.mono (by omega)) _ rfl (by simp; omega)
      (n := n) (by omega)]
    apply bindRun_congr
    rintro ⟨vs, t'⟩ he'
    simp only [bindRun_ok, List.reverse_cons, List.append_assoc, List.singleton_append]

theorem evalVals_length {dot : V} : ∀ {args : List Val} {t t' : Nat} {vs : List V},
    evalVals env oracle root dot args t = .ok (vs, t') → vs.length = args.length
  | [], t, t', vs, h => by unfold evalVals at h; cases h; rfl
  | e :: r, t, t', vs, h => by
    unfold evalVals at h
    obtain ⟨⟨v, t1⟩, _, h⟩ := bind_eq_ok h
    obtain ⟨⟨vs', t2⟩, h2, h⟩ := bind_eq_ok h
    cases h
    simp [evalVals_length h2]

/-- A step that does not loop. -/
theorem sim_step (hR : Runs env oracle fin root R) (hfin : ∀ w ∈ fin.vals, w.Ok) (hsz : fin.orders.length < 2 ^ 22) (st : Step) (hw : st.WF)
    (hop : st.op = .wild ∨ st.op = .member ∨ st.op = .select ∨ st.op = .union)
    {p p' : Program} (h : codeStep st p = .ok p') (hp : p.Small)
    (hc : Covers p.orders.length p' fin) (s : MState) (hs : s.pc = p.orders.length)
    (hst : s.stack = []) (hdot : s.dot = .null) {m n : Nat} (hm : m + p.orders.length = n + p'.orders.length) :
    R m s = bindRun (evalStep env oracle root st s.out s.tick) fun (out, t) =>
      R n { s with out := out, pc := p'.orders.length, tick := t } := by
  unfold codeStep at h
  obtain ⟨q, hq, h⟩ := bind_eq_ok h
  cases h
  have hg := codeArgs_grows st.args hq
  have hgl := hg.len
  have hle := hc.le
  rw [asm_length] at hle
  have hat := hc.last (by omega)
  rw [asm_length] at hm
  rw [sim_vals env oracle fin root hR hfin hsz st.args hw.1 hq hp (hc.left (asm_extends _ q)) s hs (by simp [hst])
    (m := m) (n := n + 1) (by omega)]
  rw [hdot, hst]
  simp only [asm_length, List.append_nil]
  have hstep : ∀ (vs : List V) (t : Nat), evalVals env oracle root .null st.args s.tick = .ok (vs, t) →
      ∀ (s' : MState), s'.pc = q.orders.length →
      R (n + 1) s' = bindRun (exec env oracle fin root (mkSmall st.op (lenInt st.args)) st.op
          { s' with pc := s'.pc + 1 }) (R n) := by
    intro vs t _ s' hs'
    rw [hR (n + 1) n s' _ (by rw [hs']; exact hat) rfl, step_small]
  rcases hop with hop | hop | hop | hop
  · -- wild
    have hargs : st.args = [] := by have := hw.2; rw [hop] at this; exact this
    unfold evalStep
    rw [hop]
    simp only
    have he : evalVals env oracle root .null st.args s.tick = .ok ([], s.tick) := by rw [hargs]; rfl
    rw [he, bindRun_ok]
    simp only
    rw [hstep _ _ he _ rfl, hop]
    simp only [exec, bindRun_bind, bindRun_ok, hst, hdot, List.reverse_nil]
  · -- member
    obtain ⟨a, hargs⟩ : ∃ v, st.args = [v] := by have := hw.2; rw [hop] at this; exact this
    unfold evalStep
    rw [hop]
    simp only [bindRun_bind]
    apply bindRun_congr
    rintro ⟨vs, t⟩ he
    have hl := evalVals_length env oracle root he
    rw [hargs] at hl
    match vs, hl with
    | [sel], _ =>
    simp only
    rw [hstep _ _ he _ rfl, hop]
    simp only [exec, List.reverse_cons, List.reverse_nil, List.nil_append]
    split
    · simp only [bindRun_ok, hst, hdot]
    · simp only [bindRun_bind, bindRun_ok, hst, hdot]
  · -- select
    obtain ⟨a, hargs⟩ : ∃ v, st.args = [v] := by have := hw.2; rw [hop] at this; exact this
    unfold evalStep
    rw [hop]
    simp only [bindRun_bind]
    apply bindRun_congr
    rintro ⟨vs, t⟩ he
    have hl := evalVals_length env oracle root he
    rw [hargs] at hl
    match vs, hl with
    | [sel], _ =>
    simp only
    rw [hstep _ _ he _ rfl, hop]
    simp only [exec, List.reverse_cons, List.reverse_nil, List.nil_append]
    split
    · simp only [bindRun_ok, hst, hdot]
    · simp only [bindRun_bind, bindRun_ok, hst, hdot]
  · -- union
    unfold evalStep
    rw [hop]
    simp only [bindRun_bind]
    apply bindRun_congr
    rintro ⟨vs, t⟩ he
    have hl := evalVals_length env oracle root he
    simp only
    rw [hstep _ _ he _ rfl, hop]
    simp only [exec]
    have hsmall : isSmallInt (Int64.ofNat vs.length) = true := by
      rw [Int64.small_iff, Int64.toInt_ofNat_of_lt (by omega)]; omega
    have hpop := popN_reverse vs [] (mkSmall .union (lenInt st.args)).smallInt
      (by rw [lenInt, ← hl]; exact mkSmall_smallInt _ _ hsmall) (by simp; omega)
    rw [List.append_nil] at hpop
    rw [hpop]
    simp only [Res.bind_ok, bindRun_bind, bindRun_ok, hst, hdot]

/-- One execution of the body of a loop. -/
theorem sim_body (hR : Runs env oracle fin root R) (hfin : ∀ w ∈ fin.vals, w.Ok) (hsz : fin.orders.length < 2 ^ 22) (st : Step) (hw : st.WF)
    (hop : st.op = .filter ∨ st.op = .nestMember ∨ st.op = .nestSelect ∨ st.op = .nestUnion ∨
      st.op = .nestWild ∨ st.op = .nestFilter)
    {p p' : Program} (h : codeStep st p = .ok p') (hp : p.Small)
    (hc : Covers p.orders.length p' fin) (s : MState) (hs : s.pc = p.orders.length)
    (hst : s.stack = []) {m n : Nat} (hm : m + p.orders.length = n + p'.orders.length) :
    R m s =
      bindRun (do
        let (vs, t) ← evalVals env oracle root s.dot st.args s.tick
        let out ← visit env (oracle t) st.op s.dot vs s.out
        Res.ok (out, if st.op = .nestWild then t + 1 else t)) fun (out, t) =>
      R n { s with out := out, pc := p'.orders.length, tick := t } := by
  unfold codeStep at h
  obtain ⟨q, hq, h⟩ := bind_eq_ok h
  cases h
  have hg := codeArgs_grows st.args hq
  have hgl := hg.len
  have hle := hc.le
  rw [asm_length] at hle
  have hat := hc.last (by omega)
  rw [asm_length] at hm
  rw [sim_vals env oracle fin root hR hfin hsz st.args hw.1 hq hp (hc.left (asm_extends _ q)) s hs (by simp [hst])
    (m := m) (n := n + 1) (by omega)]
  rw [bindRun_bind]
  apply bindRun_congr
  rintro ⟨vs, t⟩ he
  have hl := evalVals_length env oracle root he
  simp only [asm_length, List.append_nil, hst]
  rw [hR (n + 1) n _ _ (by simpa using hat) rfl, step_small]
  have one : ∀ P : List V → Prop, (∃ v, st.args = [v]) → (∀ v, P [v]) → P vs := by
    rintro P ⟨v, hv⟩ hP
    rw [hv] at hl
    match vs, hl with
    | [sel], _ => exact hP sel
  rcases hop with hop | hop | hop | hop | hop | hop
  · have hargs : ∃ v, st.args = [v] := by
      have := hw.2; rw [hop] at this; obtain ⟨e, he⟩ := this; exact ⟨_, he⟩
    rw [hop]
    apply one _ hargs
    intro v
    simp only [exec, visit, List.reverse_cons, List.reverse_nil, List.nil_append]
    split <;> simp [bindRun_ok, hst]
  · have hargs : ∃ v, st.args = [v] := by have := hw.2; rw [hop] at this; exact this
    rw [hop]
    apply one _ hargs
    intro v
    simp only [exec, visit, List.reverse_cons, List.reverse_nil, List.nil_append]
    split <;> simp [bindRun_ok, bindRun_bind, hst, show (Op.nestMember == Op.nestSelect) = false from rfl]
  · have hargs : ∃ v, st.args = [v] := by have := hw.2; rw [hop] at this; exact this
    rw [hop]
    apply one _ hargs
    intro v
    simp only [exec, visit, List.reverse_cons, List.reverse_nil, List.nil_append]
    split <;> simp [bindRun_ok, bindRun_bind, hst, show (Op.nestMember == Op.nestSelect) = false from rfl]
  · rw [hop]
    simp only [exec, visit]
    have hsmall : isSmallInt (Int64.ofNat vs.length) = true := by
      rw [Int64.small_iff, Int64.toInt_ofNat_of_lt (by omega)]; omega
    have hpop := popN_reverse vs [] (mkSmall .nestUnion (lenInt st.args)).smallInt
      (by rw [lenInt, ← hl]; exact mkSmall_smallInt _ _ hsmall) (by simp; omega)
    rw [List.append_nil] at hpop
    rw [hpop]
    simp [bindRun_bind, bindRun_ok, hst]
  · have hargs : st.args = [] := by have := hw.2; rw [hop] at this; exact this
    rw [hargs] at hl
    have : vs = [] := List.length_eq_zero_iff.mp hl
    subst this
    rw [hop]
    simp [exec, visit, bindRun_bind, bindRun_ok, hst]
  · have hargs : ∃ v, st.args = [v] := by
      have := hw.2; rw [hop] at this; obtain ⟨e, he⟩ := this; exact ⟨_, he⟩
    rw [hop]
    apply one _ hargs
    intro v
    simp only [exec, visit, List.reverse_cons, List.reverse_nil, List.nil_append]
    split <;> simp [bindRun_ok, hst]


theorem branch_ok (n : Nat) (s : MState) (h0 : 0 < n) (h1 : n ≤ fin.orders.length) (h2 : fin.orders.length < 2 ^ 22) :
    branch fin.orders.length (Int64.ofNat n) s = .ok { s with pc := n } := by
  have hn : (Int64.ofNat n).toInt = n := Int64.toInt_ofNat_of_lt (by omega)
  have hf : (Int64.ofNat fin.orders.length).toInt = fin.orders.length := Int64.toInt_ofNat_of_lt (by omega)
  unfold branch
  rw [if_neg]
  · rw [hn]; simp
  · simp only [Bool.or_eq_true, decide_eq_true_eq, not_or, Int64.le_iff_toInt_le, GT.gt,
      Int64.lt_iff_toInt_lt, hn, hf]
    show ¬ ((n : Int) ≤ 0) ∧ _
    omega

/-- The iterations of a loop, from the start of its body. -/
theorem sim_iter (hR : Runs env oracle fin root R) (hfin : ∀ w ∈ fin.vals, w.Ok) (hsz : fin.orders.length < 2 ^ 22) (st : Step) (hw : st.WF)
    (hop : st.op = .filter ∨ st.op = .nestMember ∨ st.op = .nestSelect ∨ st.op = .nestUnion ∨
      st.op = .nestWild ∨ st.op = .nestFilter)
    {p p' : Program} (h : codeStep st p = .ok p') (hp : p.Small)
    (hc : Covers p.orders.length p' fin) (h0 : 0 < p.orders.length)
    (hrep : fin.orders[p'.orders.length]? = some (mkSmall .rep (Int64.ofNat p.orders.length))) :
    ∀ (rest : List V) (s : MState) (_ : s.pc = p.orders.length) (_ : s.stack = []) (_ : s.values = [rest])
      {m n : Nat} (_ : m = n + (rest.length + 1) * (p'.orders.length - p.orders.length + 1)),
    R m s =
      bindRun (visits env oracle root st (s.dot :: rest) s.out s.tick) fun (out, t) =>
        R n
          { s with out := out, pc := p'.orders.length + 1, tick := t, dot := .null, values := [] } := by
  have hsmall : isSmallInt (Int64.ofNat p.orders.length) = true := by
    have := hc.le
    have := (codeStep_grows h).len
    rw [Int64.small_iff, Int64.toInt_ofNat_of_lt (by omega)]; omega
  have hpc : (mkSmall .rep (Int64.ofNat p.orders.length)).pc = some (Int64.ofNat p.orders.length) := by
    rw [mkSmall_pc, mkSmall_smallInt _ _ hsmall]
  have hple : p.orders.length ≤ fin.orders.length := by
    have := hc.le
    have := (codeStep_grows h).len
    omega
  have hlt := (codeStep_grows h).len
  intro rest
  induction rest with
  | nil =>
    intro s hs hst hv m n hm
    rw [sim_body env oracle fin root hR hfin hsz st hw hop h hp hc s hs hst (m := m) (n := n + 1)
      (by simp only [List.length_nil, Nat.zero_add, Nat.one_mul] at hm; omega)]
    simp only [visits, bindRun_bind, Res.bind_ok]
    apply bindRun_congr
    rintro ⟨vs, t⟩ he
    simp only [bindRun_bind]
    apply bindRun_congr
    intro out ho
    simp only [bindRun_ok]
    rw [hR (n + 1) n _ _ (by simpa using hrep) rfl, step_small]
    simp only [exec, hv, bindRun_ok]
  | cons v r ih =>
    intro s hs hst hv m n hm
    rw [sim_body env oracle fin root hR hfin hsz st hw hop h hp hc s hs hst (m := m)
      (n := n + (r.length + 1) * (p'.orders.length - p.orders.length + 1) + 1)
      (by rw [List.length_cons, Nat.succ_mul] at hm; omega)]
    rw [visits]
    simp only [bindRun_bind]
    apply bindRun_congr
    rintro ⟨vs, t⟩ he
    simp only [bindRun_bind]
    apply bindRun_congr
    intro out ho
    simp only [bindRun_ok]
    rw [hR _ _ _ _ (by simpa using hrep) rfl, step_small]
    simp only [exec, hv, hpc]
    rw [branch_ok fin _ _ h0 hple hsz, bindRun_ok, ih _ rfl (by simpa using hst) rfl (n := n) rfl]

/-- A step that loops. -/
theorem sim_loop (hR : Runs env oracle fin root R) (hfin : ∀ w ∈ fin.vals, w.Ok) (hsz : fin.orders.length < 2 ^ 22) (st : Step) (hw : st.WF)
    (intro_ : Op) (hin : (intro_ = .for_ ∧ st.op = .filter) ∨ (intro_ = .nest ∧
      (st.op = .nestMember ∨ st.op = .nestSelect ∨ st.op = .nestUnion ∨ st.op = .nestWild ∨ st.op = .nestFilter)))
    {p p' : Program} (h : codeLoop st intro_ p = .ok p') (hp : p.Small)
    (hc : Covers p.orders.length p' fin) (s : MState) (hs : s.pc = p.orders.length)
    (hst : s.stack = []) (hdot : s.dot = .null) (hv : s.values = [])
    {m n : Nat} (hm : m = n + stepCost oracle st s.out s.tick (p'.orders.length - p.orders.length)) :
    R m s = bindRun (evalStep env oracle root st s.out s.tick) fun (out, t) =>
      R n { s with out := out, pc := p'.orders.length, tick := t } := by
  unfold codeLoop at h
  simp only at h
  obtain ⟨q, hq, h⟩ := bind_eq_ok h
  have hp' : p' = patch p.orders.length (mkSmall intro_ (Int64.ofNat (q.orders.length + 1)))
      (asm (mkSmall .rep (Int64.ofNat (p.orders.length + 1))) q) := by
    cases h; simp only [asm_length]
  have hqg := codeStep_grows hq
  have hqo : (p.orders ++ [mkSmall intro_ 0]) <+: q.orders := hqg.orders
  have hql : p.orders.length + 1 ≤ q.orders.length := by simpa using hqo.length_le
  have hlen : p'.orders.length = q.orders.length + 1 := by rw [hp']; simp [patch, asm]
  have hle := hc.le
  have hget : ∀ i, p.orders.length ≤ i → i < q.orders.length + 1 → fin.orders[i]? = p'.orders[i]? := by
    intro i h1 h2; exact hc.orders i h1 (by omega)
  have hfor : fin.orders[s.pc]? = some (mkSmall intro_ (Int64.ofNat (q.orders.length + 1))) := by
    rw [hs, hget _ (Nat.le_refl _) (by omega), hp']
    simp only [patch]
    rw [List.getElem?_set_self]
    simp [asm]; omega
  have hrep : fin.orders[q.orders.length]? = some (mkSmall .rep (Int64.ofNat (p.orders.length + 1))) := by
    rw [hget _ (by omega) (by omega), hp']
    simp only [patch]
    rw [List.getElem?_set_ne (by omega)]
    simp [asm]
  have hcq : Covers (asm (mkSmall intro_ 0) p).orders.length q fin := by
    refine ⟨?_, ?_, by omega⟩
    · intro i h1 h2
      rw [asm_length] at h1
      rw [hget i (by omega) (by omega), hp']
      simp only [patch]
      rw [List.getElem?_set_ne (by omega)]
      simp only [asm]
      rw [List.getElem?_append_left h2]
    · have := hc.vals
      rw [hp'] at this
      exact this
  have hop : st.op = .filter ∨ st.op = .nestMember ∨ st.op = .nestSelect ∨ st.op = .nestUnion ∨
      st.op = .nestWild ∨ st.op = .nestFilter := by
    rcases hin with ⟨_, h⟩ | ⟨_, h⟩
    · exact Or.inl h
    · exact Or.inr h
  have hloops : loops st.op = true := by rcases hop with ho | ho | ho | ho | ho | ho <;> rw [ho] <;> rfl
  have hsmall : isSmallInt (Int64.ofNat (q.orders.length + 1)) = true := by
    rw [Int64.small_iff, Int64.toInt_ofNat_of_lt (by omega)]; omega
  have hpc : (mkSmall intro_ (Int64.ofNat (q.orders.length + 1))).pc = some (Int64.ofNat (q.orders.length + 1)) := by
    rw [mkSmall_pc, mkSmall_smallInt _ _ hsmall]
  -- common part: from `looptop`
  have main : ∀ vals, visitCount oracle st s.out s.tick = (if s.out.elems.isEmpty then 0 else (visited vals).length) →
      bindRun (looptop fin.orders.length (Int64.ofNat (q.orders.length + 1)) vals
        { s with pc := s.pc + 1, tick := s.tick + 1 })
        (R (n + visitCount oracle st s.out s.tick * (q.orders.length - p.orders.length)))
      = bindRun (loop env oracle root st vals s.out (s.tick + 1)) fun (out, t) =>
        R n { s with out := out, pc := p'.orders.length, tick := t } := by
    intro vals hvc
    rw [hvc]
    have hvis : vals.headD .null :: vals.tail = visited vals := by
      unfold visited
      cases vals <;> simp
    unfold looptop loop
    simp only
    by_cases he : s.out.elems.isEmpty = true
    · rw [if_pos he, if_pos he, branch_ok fin _ _ (by omega) (by omega) hsz]
      simp only [bindRun_ok, hlen, if_pos he, Nat.zero_mul, Nat.add_zero]
    · rw [if_neg he, if_neg he, bindRun_ok]
      rw [if_neg he, sim_iter env oracle fin root hR hfin hsz st hw hop hq (by simpa [asm, Program.Small] using hp) hcq
        (by simp [asm]) (by rw [asm_length]; exact hrep) vals.tail _ (by simp [asm, hs]) (by simpa using hst)
        (by simp [hv]) (n := n) (by
          rw [← hvis, List.length_cons, asm_length]
          congr 2
          omega)]
      simp only [hvis, hlen, hdot, hv]
  rw [hR m (n + visitCount oracle st s.out s.tick * (q.orders.length - p.orders.length)) _ _ hfor (by
    rw [hm]
    unfold stepCost
    rw [if_pos hloops, hlen]
    have : q.orders.length + 1 - p.orders.length - 1 = q.orders.length - p.orders.length := by omega
    rw [this]; omega), step_small]
  rcases hin with ⟨rfl, ho⟩ | ⟨rfl, ho⟩
  · simp only [exec, hpc]
    rw [main _ (by unfold visitCount; rw [ho])]
    unfold evalStep
    rw [ho]
  · simp only [exec, hpc]
    rw [main _ (by unfold visitCount; rcases ho with ho | ho | ho | ho | ho <;> rw [ho])]
    unfold evalStep
    rcases ho with ho | ho | ho | ho | ho <;> rw [ho]

theorem sim_pathStep (hR : Runs env oracle fin root R) (hfin : ∀ w ∈ fin.vals, w.Ok) (hsz : fin.orders.length < 2 ^ 22) (st : Step) (hw : st.WF)
    {p p' : Program} (h : codePathStep st p = .ok p') (hp : p.Small)
    (hc : Covers p.orders.length p' fin) (s : MState) (hs : s.pc = p.orders.length)
    (hst : s.stack = []) (hdot : s.dot = .null) (hv : s.values = [])
    {m n : Nat} (hm : m = n + stepCost oracle st s.out s.tick (p'.orders.length - p.orders.length)) :
    R m s = bindRun (evalStep env oracle root st s.out s.tick) fun (out, t) =>
      R n { s with out := out, pc := p'.orders.length, tick := t } := by
  have hw2 := hw.2
  unfold codePathStep at h
  cases hop : st.op <;> rw [hop] at h hw2 <;> simp only at hw2 <;>
    simp only [Op.isLeaf, Op.hasVal, Bool.and_false, Bool.and_true, Bool.false_eq_true, if_false] at h
  all_goals first
    | exact sim_step env oracle fin root hR hfin hsz st hw (by simp [hop]) h hp hc s hs hst hdot (by
        have hl := (codeStep_grows h).len
        rw [hm]
        unfold stepCost
        rw [hop]
        simp only [loops, Bool.false_eq_true, if_false]
        omega)
    | exact sim_loop env oracle fin root hR hfin hsz st hw .for_ (by simp [hop]) h hp hc s hs hst hdot hv hm
    | exact sim_loop env oracle fin root hR hfin hsz st hw .nest (by simp [hop]) h hp hc s hs hst hdot hv hm

theorem sim_path (hR : Runs env oracle fin root R) (hfin : ∀ w ∈ fin.vals, w.Ok) (hsz : fin.orders.length < 2 ^ 22) :
    ∀ (path : Path) (_ : path.WF) {p p' : Program} (_ : codePath path p = .ok p') (_ : p.Small)
      (_ : Covers p.orders.length p' fin) (s : MState) (_ : s.pc = p.orders.length)
      (_ : s.stack = []) (_ : s.dot = .null) (_ : s.values = [])
      {m n : Nat} (_ : m = n + cost env oracle root path s.out s.tick),
    R m s = bindRun (evalSteps env oracle root path s.out s.tick) fun (out, t) =>
      R n { s with out := out, pc := p'.orders.length, tick := t }
  | [], _, p, p', h, hp, hc, s, hs, _, _, _, m, n, hm => by
    unfold codePath at h
    cases h
    subst hm
    simp only [evalSteps, bindRun_ok, cost, Nat.add_zero, ← hs]
  | st :: r, hw, p, p', h, hp, hc, s, hs, hst, hdot, hv, m, n, hm => by
    unfold codePath at h
    obtain ⟨q, hq, h⟩ := bind_eq_ok h
    have hg := codePathStep_grows hq
    have hg' := codePath_grows r h
    rw [sim_pathStep env oracle fin root hR hfin hsz st (hw st (by simp)) hq hp (hc.left hg'.toExtends) s hs hst hdot hv
      (m := m) (n := n + costThen (fun x => cost env oracle root r x.1 x.2) (evalStep env oracle root st s.out s.tick))
      (by rw [hm, cost, codePathStep_orders (hw st (by simp)) hq, Nat.add_sub_cancel_left]; omega)]
    unfold evalSteps
    rw [bindRun_bind]
    apply bindRun_congr
    rintro ⟨out, t⟩ he
    have hgl := hg.len
    simp only
    rw [sim_path hR hfin hsz r (fun v hv => hw v (by simp [hv])) h (hg.small hp) (hc.mono (by omega)) _ rfl
      (by simpa using hst) (by simpa using hdot) (by simpa using hv) (n := n) (by rw [he]; rfl)]

end

end JP
