import Verif.Proof.Code
import Verif.Spec.Eval
/-! The machine running compiled code does what the direct reading of the tree says. -/
namespace JP
open Spec

/-- Continue with a result. -/
def bindRun {α : Type} (r : Res RErr α) (k : α → Option (Res RErr GoSlice)) : Option (Res RErr GoSlice) :=
  match r with
  | .ok a => k a
  | .err e => some (.err e)
  | .panic m => some (.panic m)
  | .stuck => some .stuck

theorem bindRun_ok {α : Type} (a : α) (k : α → Option (Res RErr GoSlice)) : bindRun (.ok a) k = k a := rfl

theorem bindRun_bind {α β : Type} (r : Res RErr α) (f : α → Res RErr β) (k : β → Option (Res RErr GoSlice)) :
    bindRun (r >>= f) k = bindRun r fun a => bindRun (f a) k := by
  cases r <;> rfl

theorem bindRun_congr {α : Type} (r : Res RErr α) {k k' : α → Option (Res RErr GoSlice)}
    (h : ∀ a, r = .ok a → k a = k' a) : bindRun r k = bindRun r k' := by
  cases r with
  | ok a => exact h a rfl
  | _ => rfl

theorem run_at {env : Env} {oracle : Oracle} {prog : Program} {root : V} {s : MState} {o : Order}
    (h : prog.orders[s.pc]? = some o) :
    run env oracle prog root s = bindRun (step env oracle prog root o s) (run env oracle prog root) := by
  rw [run, h]
  show (match step env oracle prog root o s with
      | Res.ok s' => run env oracle prog root s'
      | Res.err e => some (Res.err e)
      | Res.panic m => some (Res.panic m)
      | Res.stuck => some Res.stuck) = _
  cases step env oracle prog root o s <;> rfl

/-- A way to run programs that executes an order at a time, with a bound on their number to go by. -/
def Runs (env : Env) (oracle : Oracle) (prog : Program) (root : V) (R : Nat → MState → Option (Res RErr GoSlice)) : Prop :=
  ∀ (m n : Nat) (s : MState) (o : Order), prog.orders[s.pc]? = some o → m = n + 1 →
    R m s = bindRun (step env oracle prog root o s) (R n)

theorem run_runs (env : Env) (oracle : Oracle) (prog : Program) (root : V) :
    Runs env oracle prog root fun _ => run env oracle prog root :=
  fun _ _ _ _ h _ => run_at h

theorem runFuel_runs (env : Env) (oracle : Oracle) (prog : Program) (root : V) :
    Runs env oracle prog root (runFuel env oracle prog root) := by
  intro m n s o h hm
  subst hm
  rw [runFuel, h]
  show (match step env oracle prog root o s with
      | Res.ok s' => runFuel env oracle prog root n s'
      | Res.err e => some (Res.err e)
      | Res.panic m => some (Res.panic m)
      | Res.stuck => some Res.stuck) = _
  cases step env oracle prog root o s <;> rfl

theorem run_end {env : Env} {oracle : Oracle} {prog : Program} {root : V} {s : MState}
    (h : prog.orders.length ≤ s.pc) :
    run env oracle prog root s = some (.ok s.result) := by
  rw [run, List.getElem?_eq_none h]

theorem step_of {env : Env} {oracle : Oracle} {prog : Program} {root : V} {s : MState} {o : Order} {op : Op}
    (h : o.opNum = op.toNat) :
    step env oracle prog root o s = exec env oracle prog root o op { s with pc := s.pc + 1 } := by
  unfold step
  rw [h, Op.ofNat?_toNat]

theorem step_small (env : Env) (oracle : Oracle) (prog : Program) (root : V) (s : MState) (op : Op) (n : Int64) :
    step env oracle prog root (mkSmall op n) s
      = exec env oracle prog root (mkSmall op n) op { s with pc := s.pc + 1 } :=
  step_of (mkSmall_opNum op n)

theorem step_index (env : Env) (oracle : Oracle) (prog : Program) (root : V) (s : MState) (op : Op) (i : UInt32)
    (hi : i.toNat < 2 ^ 22) :
    step env oracle prog root (mkOrder op i) s
      = exec env oracle prog root (mkOrder op i) op { s with pc := s.pc + 1 } :=
  step_of (mkOrder_opNum op i (by omega))

/-- The final program `fin` holds the code `p'` from order `n` on, and its constants. -/
structure Covers (n : Nat) (p' fin : Program) : Prop where
  orders : ∀ i, n ≤ i → i < p'.orders.length → fin.orders[i]? = p'.orders[i]?
  vals : p'.vals <+: fin.vals
  le : p'.orders.length ≤ fin.orders.length

theorem Covers.left {n : Nat} {p q fin : Program} (h : Covers n q fin) (g : Extends p q) : Covers n p fin where
  orders i h1 h2 := by
    rw [h.orders i h1 (Nat.lt_of_lt_of_le h2 g.orders.length_le)]
    obtain ⟨t, ht⟩ := g.orders
    rw [← ht, List.getElem?_append_left h2]
  vals := g.vals.trans h.vals
  le := Nat.le_trans g.orders.length_le h.le

theorem Covers.mono {n m : Nat} {q fin : Program} (h : Covers n q fin) (g : n ≤ m) : Covers m q fin where
  orders i h1 h2 := h.orders i (Nat.le_trans g h1) h2
  vals := h.vals
  le := h.le

theorem Covers.last {n : Nat} {p fin : Program} {o : Order} (h : Covers n (asm o p) fin)
    (hn : n ≤ p.orders.length) : fin.orders[p.orders.length]? = some o := by
  rw [h.orders _ hn (by simp [asm])]
  simp [asm]

theorem prefix_getElem? {α : Type} {a b : List α} (h : a <+: b) {i : Nat} {x : α} (hx : a[i]? = some x) :
    b[i]? = some x := by
  obtain ⟨t, rfl⟩ := h
  rw [List.getElem?_append_left (List.getElem?_eq_some_iff.mp hx).1, hx]

theorem feq_of_nonneg {a b : F64} (h : a.feq b = true) (ha : a.neg? = false) (hb : b.neg? = false) : a = b := by
  unfold F64.feq at h
  simp only [Bool.and_eq_true, beq_iff_eq] at h
  obtain ⟨_, h⟩ := h
  unfold F64.key at h
  rw [ha, hb] at h
  simp only [Bool.false_eq_true, if_false] at h
  unfold F64.neg? at ha hb
  unfold F64.mag at h
  have ha := of_decide_eq_false ha
  have hb := of_decide_eq_false hb
  cases a; cases b
  simp only at h ha hb
  congr 1
  apply UInt64.toNat_inj.mp
  omega

/-- A constant may share a slot only with itself. -/
def PVal.Ok : PVal → Prop
  | .float f => f.neg? = false
  | _ => True

theorem keyEq_eq {a b : PVal} (h : a.keyEq b = true) (ha : a.Ok) (hb : b.Ok) : a = b := by
  cases a <;> cases b <;> simp [PVal.keyEq] at h <;> try (subst h; rfl)
  next f g => rw [feq_of_nonneg h ha hb]


section
variable (env : Env) (oracle : Oracle) (fin : Program) (root : V)
  {R : Nat → MState → Option (Res RErr GoSlice)}

theorem sim_const (hR : Runs env oracle fin root R) {op : Op} {v : PVal} {p p' : Program} (hv : v.Ok) (hfin : ∀ w ∈ fin.vals, w.Ok)
    (hop : op = .real ∨ op = .re ∨ op = .bounds ∨ op = .string ∨ op = .id ∨ (op = .int ∧ ∃ n, v = .int n))
    (hint : ∀ n, v = .int n → op = .int)
    (h : codeOp op (some v) p = .ok p') (hp : p.Small) (hc : Covers p.orders.length p' fin)
    (s : MState) (hs : s.pc = p.orders.length) {m n : Nat} (hm : m + p.orders.length = n + p'.orders.length) :
    R m s = R n { s with stack := v.value :: s.stack, pc := p'.orders.length } := by
  obtain ⟨o, ho, hvals, hsm, hcase⟩ := codeOp_ok h hp
  have hat : fin.orders[s.pc]? = some o := by
    rw [hs, hc.orders _ (Nat.le_refl _) (by rw [ho]; simp), ho]; simp
  have hlen : p'.orders.length = s.pc + 1 := by rw [ho, hs]; simp
  rw [hR m n s o hat (by omega), hlen]
  rcases hcase with ⟨n, rfl, hn, rfl⟩ | ⟨i, w, rfl, hi, hw, he⟩
  · have := hint n rfl
    subst this
    rw [step_small]
    simp only [exec, mkSmall_isSmallInt, if_true, mkSmall_smallInt _ _ hn, bindRun_ok]
    rfl
  · rw [step_index _ _ _ _ _ _ _ hi]
    have hw' := prefix_getElem? hc.vals hw
    have hwv : w = v := by
      rcases he with rfl | he
      · rfl
      · exact keyEq_eq he (hfin w (List.mem_of_getElem? hw')) hv
    subst hwv
    have hpush : ∀ s, pushVal fin (mkOrder op i) s = .ok (s.push w.value) := by
      intro s
      unfold pushVal
      rw [mkOrder_index _ _ (by omega)]
      simp only [hw']
    rcases hop with rfl | rfl | rfl | rfl | rfl | ⟨rfl, _⟩
    all_goals
      simp only [exec, hpush, mkOrder_isSmallInt _ _ (show i.toNat < 2 ^ 23 by omega), Bool.false_eq_true,
        if_false, bindRun_ok]
      rfl

theorem sim_nil (hR : Runs env oracle fin root R) {op : Op} {p p' : Program} {v : MState → V}
    (hex : ∀ (o : Order) s, exec env oracle fin root o op s = .ok (s.push (v s)))
    (hv : ∀ s n, v { s with pc := n } = v s)
    (h : codeOp op none p = .ok p') (hc : Covers p.orders.length p' fin)
    (s : MState) (hs : s.pc = p.orders.length) {m n : Nat} (hm : m + p.orders.length = n + p'.orders.length) :
    R m s = R n { s with stack := v s :: s.stack, pc := p'.orders.length } := by
  unfold codeOp at h
  cases h
  have hat : fin.orders[s.pc]? = some (mkSmall op 0) := by
    rw [hs]; exact hc.last (Nat.le_refl _)
  rw [asm_length] at hm
  rw [hR m n s _ hat (by omega), step_small, hex, bindRun_ok, asm_length, hv]
  simp only [MState.push, hs]

theorem popN_reverse (vs st : List V) (n : Int64) (hn : n = Int64.ofNat vs.length)
    (hl : vs.length + st.length < 2 ^ 63) :
    popN n (vs.reverse ++ st) = .ok (vs, st) := by
  have h1 : n.toInt = vs.length := by
    rw [hn, Int64.toInt_ofNat_of_lt (by omega)]
  have h2 : (Int64.ofNat (vs.reverse ++ st).length).toInt = vs.length + st.length := by
    rw [Int64.toInt_ofNat_of_lt (by simp; omega)]; simp
  unfold popN
  rw [if_neg, if_neg]
  · rw [h1]
    simp
  · rw [Int64.lt_iff_toInt_lt, h1]
    show ¬ ((vs.length : Int) < 0)
    omega
  · rw [Int64.lt_iff_toInt_lt, h1, h2]; omega


/-- The operands of an operator have the right number, and are names where a name is needed. -/
def VShape (op : Op) (vs : List V) : Prop :=
  (op.isUnary = true ∧ ∃ v, vs = [v]) ∨ (op.isBinary = true ∧ ∃ a b, vs = [a, b]) ∨
  (op = .dot ∧ ∃ a n, vs = [a, .name n]) ∨ op = .array ∨ (op = .call ∧ ∃ f r, vs = .name f :: r)

theorem sim_op (hR : Runs env oracle fin root R) {op : Op} {vs st : List V} (hsh : VShape op vs) (hl : vs.length + st.length < 2 ^ 22)
    (s : MState) (hst : s.stack = vs.reverse ++ st)
    (hat : fin.orders[s.pc]? = some (mkSmall op (Int64.ofNat vs.length))) {m n : Nat} (hm : m = n + 1) :
    R m s = bindRun (applyOp env (oracle s.tick) op vs) fun v =>
      R n { s with stack := v :: st, pc := s.pc + 1,
                                       tick := if op = .call then s.tick + 1 else s.tick } := by
  rw [hR m n s _ hat hm, step_small]
  have hsmall : isSmallInt (Int64.ofNat vs.length) = true := by
    rw [Int64.small_iff, Int64.toInt_ofNat_of_lt (by omega)]; omega
  have hpop := popN_reverse vs st (mkSmall op (Int64.ofNat vs.length)).smallInt (mkSmall_smallInt _ _ hsmall) (by omega)
  rcases hsh with ⟨hu, v, rfl⟩ | ⟨hb, a, b, rfl⟩ | ⟨rfl, a, n, rfl⟩ | rfl | ⟨rfl, f, r, rfl⟩
  · simp only [List.reverse_cons, List.reverse_nil, List.nil_append, List.singleton_append] at hst
    cases op <;> simp [Op.isUnary] at hu
    all_goals
      simp only [exec, hst, unop, applyOp, bindRun_ok]
      simp
  · simp only [List.reverse_cons, List.reverse_nil, List.nil_append, List.cons_append] at hst
    cases op <;> simp [Op.isBinary] at hb
    all_goals
      simp only [exec, hst, binop, applyOp, bindRun_ok, Res.bind_ok, bindRun_bind]
      simp
  · simp only [List.reverse_cons, List.reverse_nil, List.nil_append, List.cons_append] at hst
    simp only [exec, hst, binop, applyOp, bindRun_ok, bindRun_bind]
    simp
  · simp only [exec, applyOp]
    rw [hst, hpop]
    simp [bindRun_ok]
  · simp only [exec, applyOp]
    rw [hst, hpop]
    simp only [Res.bind_ok, bindRun_bind, bindRun_ok]
    simp

theorem evalKids_length {dot : V} : ∀ {kids : List Expr} {t t' : Nat} {vs : List V},
    evalKids env oracle root dot kids t = .ok (vs, t') → vs.length = kids.length
  | [], t, t', vs, h => by unfold evalKids at h; cases h; rfl
  | e :: r, t, t', vs, h => by
    unfold evalKids at h
    obtain ⟨⟨v, t1⟩, _, h⟩ := bind_eq_ok h
    obtain ⟨⟨vs', t2⟩, h2, h⟩ := bind_eq_ok h
    cases h
    simp [evalKids_length h2]

/-- The operands of an operator in a well-formed tree. -/
def KShape (op : Op) (kids : List Expr) : Prop :=
  (op.isUnary = true ∧ ∃ v, kids = [v]) ∨ (op.isBinary = true ∧ ∃ a b, kids = [a, b]) ∨
  (op = .dot ∧ ∃ a n, kids = [a, .name n]) ∨ op = .array ∨ (op = .call ∧ ∃ f r, kids = .name f :: r)

theorem WF_inner {op : Op} {kids : List Expr} (h : Expr.WF (.inner op kids)) :
    Exprs.WF kids ∧ KShape op kids := by
  cases h with
  | unary _ e h1 h2 => exact ⟨.cons _ _ h2 .nil, Or.inl ⟨h1, e, rfl⟩⟩
  | binary _ a b h1 h2 h3 => exact ⟨.cons _ _ h2 (.cons _ _ h3 .nil), Or.inr (Or.inl ⟨h1, a, b, rfl⟩)⟩
  | dot a n h1 => exact ⟨.cons _ _ h1 (.cons _ _ (.name _) .nil), Or.inr (Or.inr (Or.inl ⟨rfl, a, n, rfl⟩))⟩
  | array _ h => exact ⟨h, Or.inr (Or.inr (Or.inr (Or.inl rfl)))⟩
  | call f es h => exact ⟨.cons _ _ (.name _) h, Or.inr (Or.inr (Or.inr (Or.inr ⟨rfl, f, es, rfl⟩)))⟩

theorem KShape.notLeaf {op : Op} {kids : List Expr} (h : KShape op kids) : op.isLeaf = false := by
  rcases h with ⟨h, _⟩ | ⟨h, _⟩ | ⟨rfl, _⟩ | rfl | ⟨rfl, _⟩
  · cases op <;> simp [Op.isUnary] at h <;> rfl
  · cases op <;> simp [Op.isBinary] at h <;> rfl
  all_goals rfl

theorem shape_eval {op : Op} {kids : List Expr} {dot : V} {t t' : Nat} {vs : List V} (h : KShape op kids)
    (he : evalKids env oracle root dot kids t = .ok (vs, t')) : VShape op vs := by
  rcases h with ⟨h, v, rfl⟩ | ⟨h, a, b, rfl⟩ | ⟨rfl, a, n, rfl⟩ | rfl | ⟨rfl, f, r, rfl⟩
  · have := evalKids_length env oracle root he
    match vs, this with
    | [x], _ => exact Or.inl ⟨h, x, rfl⟩
  · have := evalKids_length env oracle root he
    match vs, this with
    | [x, y], _ => exact Or.inr (Or.inl ⟨h, x, y, rfl⟩)
  · simp only [evalKids] at he
    obtain ⟨⟨v, t1⟩, _, h⟩ := bind_eq_ok he
    simp only [evalExpr, Res.bind_ok] at h
    cases h
    exact Or.inr (Or.inr (Or.inl ⟨rfl, v, n, rfl⟩))
  · exact Or.inr (Or.inr (Or.inr (Or.inl rfl)))
  · simp only [evalKids, evalExpr, Res.bind_ok] at he
    obtain ⟨⟨vs', t1⟩, _, h⟩ := bind_eq_ok he
    cases h
    exact Or.inr (Or.inr (Or.inr (Or.inr ⟨rfl, f, vs', rfl⟩)))

mutual
theorem sim_expr (hR : Runs env oracle fin root R) (hfin : ∀ w ∈ fin.vals, w.Ok) (hsz : fin.orders.length < 2 ^ 22) :
    ∀ (e : Expr) (_ : e.WF) {p p' : Program} (_ : codeExpr e p = .ok p') (_ : p.Small)
      (_ : Covers p.orders.length p' fin) (s : MState) (_ : s.pc = p.orders.length)
      (_ : s.stack.length ≤ s.pc) {m n : Nat} (_ : m + p.orders.length = n + p'.orders.length),
    R m s = bindRun (evalExpr env oracle root s.dot e s.tick) fun (v, t) =>
      R n { s with stack := v :: s.stack, pc := p'.orders.length, tick := t }
  | .int i, _, p, p', h, hp, hc, s, hs, _, m, n, hm => by
    simp only [evalExpr, bindRun_ok]
    unfold codeExpr at h
    split at h
    · next hn =>
      cases h
      have hat : fin.orders[s.pc]? = some (mkSmall .int i) := by rw [hs]; exact hc.last (Nat.le_refl _)
      rw [asm_length] at hm
      rw [hR m n s _ hat (by omega), step_small]
      simp only [exec, mkSmall_isSmallInt, if_true, mkSmall_smallInt _ _ hn, bindRun_ok, MState.push, asm_length, hs]
    · exact sim_const env oracle fin root hR (v := .int i) (by first | trivial | exact hf) hfin (by simp) (by simp) h hp hc s hs hm
  | .float f, hw, p, p', h, hp, hc, s, hs, _, m, n, hm => by
    simp only [evalExpr, bindRun_ok]
    unfold codeExpr at h
    cases hw with
    | float _ hf => exact sim_const env oracle fin root hR (v := .float f) (by first | trivial | exact hf trivial) hfin (by simp) (by simp) h hp hc s hs hm
  | .str f, _, p, p', h, hp, hc, s, hs, _, m, n, hm => by
    simp only [evalExpr, bindRun_ok]
    unfold codeExpr at h
    exact sim_const env oracle fin root hR (v := .str f) (by first | trivial | exact hf) hfin (by simp) (by simp) h hp hc s hs hm
  | .name f, _, p, p', h, hp, hc, s, hs, _, m, n, hm => by
    simp only [evalExpr, bindRun_ok]
    unfold codeExpr at h
    exact sim_const env oracle fin root hR (v := .name f) (by first | trivial | exact hf) hfin (by simp) (by simp) h hp hc s hs hm
  | .re f, _, p, p', h, hp, hc, s, hs, _, m, n, hm => by
    simp only [evalExpr, bindRun_ok]
    unfold codeExpr at h
    exact sim_const env oracle fin root hR (v := .re f) (by first | trivial | exact hf) hfin (by simp) (by simp) h hp hc s hs hm
  | .bool b, _, p, p', h, hp, hc, s, hs, _, m, n, hm => by
    simp only [evalExpr, bindRun_ok]
    unfold codeExpr at h
    cases h
    have hat : fin.orders[s.pc]? = some (mkSmall .bool (if b then 1 else 0)) := by
      rw [hs]; exact hc.last (Nat.le_refl _)
    rw [asm_length] at hm
    rw [hR m n s _ hat (by omega), step_small]
    have hn : isSmallInt (if b = true then 1 else 0) = true := by cases b <;> decide
    have hb : ((if b = true then (1 : Int64) else 0) != 0) = b := by cases b <;> decide
    simp only [exec, mkSmall_isSmallInt, Bool.not_true, Bool.false_eq_true, if_false,
      mkSmall_smallInt _ _ hn, bindRun_ok, MState.push, asm_length, hs, hb]
  | .null, _, p, p', h, hp, hc, s, hs, _, m, n, hm => by
    simp only [evalExpr, bindRun_ok]
    unfold codeExpr at h
    exact sim_nil env oracle fin root hR (v := fun _ => .null) (by intros; rfl) (by intros; rfl) h hc s hs hm
  | .current, _, p, p', h, hp, hc, s, hs, _, m, n, hm => by
    simp only [evalExpr, bindRun_ok]
    unfold codeExpr at h
    exact sim_nil env oracle fin root hR (v := fun s => s.dot) (by intros; rfl) (by intros; rfl) h hc s hs hm
  | .root, _, p, p', h, hp, hc, s, hs, _, m, n, hm => by
    simp only [evalExpr, bindRun_ok]
    unfold codeExpr at h
    exact sim_nil env oracle fin root hR (v := fun _ => root) (by intros; rfl) (by intros; rfl) h hc s hs hm
  | .inner op kids, hw, p, p', h, hp, hc, s, hs, hst, m, n, hm => by
    obtain ⟨hk, hsh⟩ := WF_inner hw
    unfold codeExpr at h
    rw [hsh.notLeaf] at h
    simp only [Bool.false_eq_true, if_false] at h
    obtain ⟨q, hq, h⟩ := bind_eq_ok h
    cases h
    have hg := codeKids_grows kids hq
    have hcq := hc.left (asm_extends _ q)
    have hgl := hg.len
    rw [asm_length] at hm
    rw [sim_kids hR hfin hsz kids hk hq hp hcq s hs hst (m := m) (n := n + 1) (by omega)]
    unfold evalExpr
    rw [bindRun_bind]
    apply bindRun_congr
    rintro ⟨vs, t⟩ he
    have hlen := evalKids_length env oracle root he
    have hle := hc.le
    rw [asm_length] at hle
    simp only [bindRun_bind]
    rw [sim_op env oracle fin root hR (m := n + 1) (n := n) (vs := vs) (st := s.stack) (shape_eval env oracle root hsh he) (by omega) _ rfl _ rfl]
    · apply bindRun_congr
      intro v _
      simp only [asm_length, bindRun_ok]
    · rw [hlen]; exact hc.last (by omega)
theorem sim_kids (hR : Runs env oracle fin root R) (hfin : ∀ w ∈ fin.vals, w.Ok) (hsz : fin.orders.length < 2 ^ 22) :
    ∀ (es : List Expr) (_ : Exprs.WF es) {p p' : Program} (_ : codeKids es p = .ok p') (_ : p.Small)
      (_ : Covers p.orders.length p' fin) (s : MState) (_ : s.pc = p.orders.length)
      (_ : s.stack.length ≤ s.pc) {m n : Nat} (_ : m + p.orders.length = n + p'.orders.length),
    R m s = bindRun (evalKids env oracle root s.dot es s.tick) fun (vs, t) =>
      R n { s with stack := vs.reverse ++ s.stack, pc := p'.orders.length, tick := t }
  | [], _, p, p', h, hp, hc, s, hs, _, m, n, hm => by
    unfold codeKids at h
    cases h
    have hm : m = n := by omega
    subst hm
    simp only [evalKids, bindRun_ok, List.reverse_nil, List.nil_append, ← hs]
  | e :: r, hw, p, p', h, hp, hc, s, hs, hst, m, n, hm => by
    cases hw with
    | cons _ _ hwe hwr =>
    unfold codeKids at h
    obtain ⟨q, hq, h⟩ := bind_eq_ok h
    have hg := codeExpr_grows e hq
    have hg' := codeKids_grows r h
    have hgl := hg.len
    have hgl' := hg'.len
    rw [sim_expr hR hfin hsz e hwe hq hp (hc.left hg'.toExtends) s hs hst (m := m)
      (n := n + (p'.orders.length - q.orders.length)) (by omega)]
    unfold evalKids
    rw [bindRun_bind]
    apply bindRun_congr
    rintro ⟨v, t⟩ he
    simp only [bindRun_bind]
    rw [sim_kids hR hfin hsz r hwr h (hg.small hp) (hc.mono (by omega)) _ rfl (by simp; omega)
      (n := n) (by omega)]
    apply bindRun_congr
    rintro ⟨vs, t'⟩ he'
    simp only [bindRun_ok, List.reverse_cons, List.append_assoc, List.singleton_append]
end

end

end JP
