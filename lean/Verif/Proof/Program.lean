import Verif.Spec.Program
import Verif.Proof.ProgText
import Verif.Proof.PathSize
import Verif.Proof.Big
/-! The shape and size of programs. -/
namespace JP
open Spec

/-! ### Orders and loops -/

theorem does_small (op : Op) (n : Int64) : Does (mkSmall op n) op := by
  unfold Does; rw [mkSmall_opNum, Op.ofNat?_toNat]

theorem does_order (op : Op) (i : UInt32) (h : i.toNat < 2 ^ 22) : Does (mkOrder op i) op := by
  unfold Does; rw [mkOrder_opNum _ _ (by omega), Op.ofNat?_toNat]

/-- A part of the coder that adds orders which do not jump. -/
def AddsPlain (p : Program) (r : Res CErr Program) : Prop :=
  p.Small → ∀ p', r = .ok p' → p'.Small ∧ ∃ body, p'.orders = p.orders ++ body ∧ ∀ o ∈ body, Straightforward o

theorem AddsPlain.bind {p : Program} {r : Res CErr Program} {f : Program → Res CErr Program} (h : AddsPlain p r)
    (h' : ∀ q, AddsPlain q (f q)) : AddsPlain p (r >>= f) := by
  intro hp p' hr
  obtain ⟨q, hq, hf⟩ := bind_eq_ok hr
  obtain ⟨h1, b1, h2, h3⟩ := h hp q hq
  obtain ⟨h4, b2, h5, h6⟩ := h' q h1 p' hf
  refine ⟨h4, b1 ++ b2, by rw [h5, h2, List.append_assoc], fun o ho => ?_⟩
  rcases List.mem_append.1 ho with ho | ho
  · exact h3 o ho
  · exact h6 o ho

theorem addsPlain_nil (p : Program) : AddsPlain p (.ok p) := by
  rintro hp p' h
  cases h
  exact ⟨hp, [], by simp, by simp⟩

theorem addsPlain_asm {op : Op} (n : Int64) (p : Program) (h1 : op ∉ loopOps) (h2 : op ∉ unusedOps) :
    AddsPlain p (.ok (asm (mkSmall op n) p)) := by
  rintro hp p' h
  cases h
  exact ⟨hp, [_], rfl, by rintro o ho; rw [List.mem_singleton.1 ho]; exact ⟨op, does_small op n, h1, h2⟩⟩

theorem addsPlain_codeOp {op : Op} (v : PVal) (p : Program) (h1 : op ∉ loopOps) (h2 : op ∉ unusedOps) :
    AddsPlain p (codeOp op (some v) p) := by
  rintro hp p' h
  obtain ⟨o, e1, _, e3, e4⟩ := codeOp_ok h hp
  refine ⟨e3, [o], e1, ?_⟩
  rintro o' ho
  rw [List.mem_singleton.1 ho]
  rcases e4 with ⟨n, _, _, rfl⟩ | ⟨i, w, rfl, hi, _⟩
  · exact ⟨op, does_small op n, h1, h2⟩
  · exact ⟨op, does_order op i hi, h1, h2⟩

theorem inner_op {op : Op} {kids : List Expr} (h : Expr.WF (.inner op kids)) : op ∉ loopOps ∧ op ∉ unusedOps := by
  cases h with
  | unary _ _ h => cases op <;> first | (cases h; done) | decide
  | binary _ _ _ h => cases op <;> first | (cases h; done) | decide
  | dot | array | call => decide

mutual
theorem addsPlain_codeExpr : ∀ (e : Expr) (_ : e.WF) (p : Program), AddsPlain p (codeExpr e p)
  | .int n, _, p => by
    unfold codeExpr
    split
    · exact addsPlain_asm _ p (by decide) (by decide)
    · exact addsPlain_codeOp _ p (by decide) (by decide)
  | .float f, _, p => by unfold codeExpr; exact addsPlain_codeOp _ p (by decide) (by decide)
  | .str f, _, p => by unfold codeExpr; exact addsPlain_codeOp _ p (by decide) (by decide)
  | .name f, _, p => by unfold codeExpr; exact addsPlain_codeOp _ p (by decide) (by decide)
  | .re f, _, p => by unfold codeExpr; exact addsPlain_codeOp _ p (by decide) (by decide)
  | .bool b, _, p => by unfold codeExpr; exact addsPlain_asm _ p (by decide) (by decide)
  | .null, _, p => by unfold codeExpr; exact addsPlain_asm _ p (by decide) (by decide)
  | .current, _, p => by unfold codeExpr; exact addsPlain_asm _ p (by decide) (by decide)
  | .root, _, p => by unfold codeExpr; exact addsPlain_asm _ p (by decide) (by decide)
  | .inner op kids, h, p => by
    unfold codeExpr
    rw [if_neg (by rw [notLeaf_of_wf h]; decide)]
    exact (addsPlain_codeKids kids (kids_of_wf h) p).bind fun q => addsPlain_asm _ q (inner_op h).1 (inner_op h).2
theorem addsPlain_codeKids : ∀ (es : List Expr) (_ : Exprs.WF es) (p : Program), AddsPlain p (codeKids es p)
  | [], _, p => by unfold codeKids; exact addsPlain_nil p
  | e :: r, h, p => by
    unfold codeKids
    have : e.WF ∧ Exprs.WF r := by cases h with | cons _ _ h1 h2 => exact ⟨h1, h2⟩
    exact (addsPlain_codeExpr e this.1 p).bind fun q => addsPlain_codeKids r this.2 q
end

theorem addsPlain_codeVal (v : Val) (h : v.WF) (p : Program) : AddsPlain p (codeVal (valOp v) v p) := by
  cases v with
  | expr e => exact addsPlain_codeExpr e h p
  | int n => exact addsPlain_codeOp (.int n) p (by simp [valOp, loopOps]) (by simp [valOp, unusedOps])
  | str n => exact addsPlain_codeOp (.str n) p (by simp [valOp, loopOps]) (by simp [valOp, unusedOps])
  | name n => exact addsPlain_codeOp (.name n) p (by simp [valOp, loopOps]) (by simp [valOp, unusedOps])
  | slice n => exact addsPlain_codeOp (.slice n) p (by simp [valOp, loopOps]) (by simp [valOp, unusedOps])

theorem addsPlain_codeArgs : ∀ (vs : List Val) (_ : ∀ v ∈ vs, v.WF) (p : Program), AddsPlain p (codeArgs vs p)
  | [], _, p => by unfold codeArgs; exact addsPlain_nil p
  | v :: r, h, p => by
    unfold codeArgs
    exact (addsPlain_codeVal v (h v (by simp)) p).bind fun q => addsPlain_codeArgs r (fun v hm => h v (by simp [hm])) q

theorem addsPlain_codeStep (s : Step) (h : s.WF) (p : Program) : AddsPlain p (codeStep s p) := by
  unfold codeStep
  have := h.2
  refine (addsPlain_codeArgs s.args h.1 p).bind fun q => addsPlain_asm _ q ?_ ?_ <;>
    cases hop : s.op <;> rw [hop] at this <;> first | decide | exact this.elim

/-- An order of which there is a use. -/
def Useful (o : Order) : Prop := ∃ op, Does o op ∧ op ∉ unusedOps

/-- A part of the coder that adds orders and loops. -/
def AddsLoops (p : Program) (r : Res CErr Program) : Prop :=
  p.Small → ∀ p', r = .ok p' → p'.Small ∧
    ∃ os, p'.orders = p.orders ++ os ∧ (∀ o ∈ os, Useful o) ∧ (p'.orders.length < 2 ^ 22 → ∀ us, OrdersAndLoops p'.orders.length us →
      OrdersAndLoops p.orders.length (os ++ us))

theorem plain_loops : ∀ {n : Nat} {body us : List Order}, (∀ o ∈ body, Straightforward o) → OrdersAndLoops (n + body.length) us →
    OrdersAndLoops n (body ++ us)
  | n, [], us, _, h => h
  | n, o :: body, us, hb, h => by
    refine .order _ _ _ (hb o (by simp)) (plain_loops (fun x hx => hb x (by simp [hx])) ?_)
    rwa [List.length_cons, show n + (body.length + 1) = n + 1 + body.length by omega] at h

theorem AddsPlain.loops {p : Program} {r : Res CErr Program} (h : AddsPlain p r) : AddsLoops p r := by
  intro hp p' hr
  obtain ⟨h1, body, h2, h3⟩ := h hp p' hr
  refine ⟨h1, body, h2, fun o ho => let ⟨op, a, _, b⟩ := h3 o ho; ⟨op, a, b⟩, fun _ us hu => plain_loops h3 ?_⟩
  rwa [h2, List.length_append] at hu

theorem pc_small (op : Op) {n : Nat} (h : n < 2 ^ 22) : (mkSmall op (Int64.ofNat n)).pc = some (Int64.ofNat n) := by
  rw [mkSmall_pc, mkSmall_smallInt]
  rw [Int64.small_iff]
  rw [Int64.toInt_ofNat_of_lt (by omega)]
  omega

theorem addsLoops_codeLoop (s : Step) (h : s.WF) (op : Op) (ho : op = .for_ ∨ op = .nest) (p : Program) : AddsLoops p (codeLoop s op p) := by
  intro hp p' hr
  unfold codeLoop at hr
  simp only at hr
  obtain ⟨q, hq, hr⟩ := bind_eq_ok hr
  obtain ⟨h1, body, h2, h3⟩ := addsPlain_codeStep s h (asm (mkSmall op 0) p) hp q hq
  cases hr
  have e : (patch p.orders.length
      (mkSmall op (Int64.ofNat (asm (mkSmall .rep (Int64.ofNat (asm (mkSmall op 0) p).orders.length)) q).orders.length))
      (asm (mkSmall .rep (Int64.ofNat (asm (mkSmall op 0) p).orders.length)) q)).orders =
      p.orders ++ (mkSmall op (Int64.ofNat (p.orders.length + body.length + 2)) :: (body ++ [mkSmall .rep (Int64.ofNat (p.orders.length + 1))])) := by
    simp only [patch, asm] at h2 ⊢
    rw [h2]
    simp only [List.append_assoc, List.length_append, List.length_cons, List.length_nil]
    rw [List.set_append_right _ _ (by simp)]
    simp only [Nat.sub_self, List.cons_append, List.nil_append, List.set_cons_zero]
    congr 4
    omega
  refine ⟨h1, _, e, fun o hm => ?_, fun hl us hu => ?_⟩
  · rcases List.mem_cons.1 hm with rfl | hm
    · exact ⟨op, does_small _ _, by rcases ho with rfl | rfl <;> decide⟩
    · rcases List.mem_append.1 hm with hm | hm
      · obtain ⟨op, a, _, b⟩ := h3 o hm
        exact ⟨op, a, b⟩
      · rw [List.mem_singleton.1 hm]
        exact ⟨.rep, does_small _ _, by decide⟩
  rw [e] at hl hu
  simp only [List.length_append, List.length_cons, List.length_nil] at hl hu
  rw [List.cons_append, List.append_assoc]
  refine .loop _ _ _ _ _ ?_ (pc_small _ (by omega)) h3 (does_small _ _) (pc_small _ (by omega)) ?_
  · rcases ho with rfl | rfl
    · exact .inl (does_small _ _)
    · exact .inr (does_small _ _)
  · rwa [show p.orders.length + (body.length + (0 + 1) + 1) = p.orders.length + body.length + 2 by omega] at hu

theorem addsLoops_codePathStep (s : Step) (h : s.WF) (p : Program) : AddsLoops p (codePathStep s p) := by
  have hno : (s.op.isLeaf && s.op.hasVal) = false := by
    have := h.2
    cases hop : s.op <;> rw [hop] at this <;> first | rfl | exact this.elim
  unfold codePathStep
  rw [if_neg (by rw [hno]; decide)]
  cases s.op <;> first
    | exact addsLoops_codeLoop s h _ (.inl rfl) p
    | exact addsLoops_codeLoop s h _ (.inr rfl) p
    | exact (addsPlain_codeStep s h p).loops

theorem addsLoops_codePath : ∀ (path : Path) (_ : path.WF) (p : Program), AddsLoops p (codePath path p)
  | [], _, p => by unfold codePath; exact (addsPlain_nil p).loops
  | s :: r, h, p => by
    unfold codePath
    intro hp p' hr
    obtain ⟨q, hq, hf⟩ := bind_eq_ok hr
    obtain ⟨h1, o1, h2, u1, h3⟩ := addsLoops_codePathStep s (h s (by simp)) p hp q hq
    obtain ⟨h4, o2, h5, u2, h6⟩ := addsLoops_codePath r (fun v hm => h v (by simp [hm])) q h1 p' hf
    refine ⟨h4, o1 ++ o2, by rw [h5, h2, List.append_assoc], fun o hm => (List.mem_append.1 hm).elim (u1 o) (u2 o), fun hl us hu => ?_⟩
    rw [List.append_assoc]
    refine h3 ?_ _ (h6 hl us hu)
    rw [h5, List.length_append] at hl
    omega

theorem compile_loops {path : Path} (h : path.WF) {p : Program} (hc : compile path = .ok p) (hl : p.orders.length < 2 ^ 22) :
    OrdersAndLoops 0 p.orders := by
  obtain ⟨_, os, h1, _, h2⟩ := addsLoops_codePath path h ⟨[], []⟩ (by simp [Program.Small]) p hc
  have := h2 hl [] (.nil _)
  rw [h1]
  simpa using this

theorem compile_useful {path : Path} (h : path.WF) {p : Program} (hc : compile path = .ok p) : ∀ o ∈ p.orders, Useful o := by
  obtain ⟨_, os, h1, h2, _⟩ := addsLoops_codePath path h ⟨[], []⟩ (by simp [Program.Small]) p hc
  rw [h1]
  simpa using h2

/-- Loops end within the program. -/
theorem loop_target {n : Nat} {os : List Order} (h : OrdersAndLoops n os) : ∀ o ∈ os, Does o .nest →
    ∃ m, o.pc = some (Int64.ofNat m) ∧ m ≤ n + os.length := by
  induction h with
  | nil n => simp
  | order n o os hs _ ih =>
    intro x hx hd
    rcases List.mem_cons.1 hx with rfl | hx
    · obtain ⟨op, h1, h2, _⟩ := hs
      cases h1.symm.trans hd
      exact absurd h2 (by decide)
    · obtain ⟨m, h1, h2⟩ := ih x hx hd
      exact ⟨m, h1, by rw [List.length_cons]; omega⟩
  | loop n f body r os _ hf hb hr _ _ ih =>
    intro x hx hd
    simp only [List.length_cons, List.length_append]
    rcases List.mem_cons.1 hx with rfl | hx
    · exact ⟨_, hf, by omega⟩
    rcases List.mem_append.1 hx with hx | hx
    · obtain ⟨op, h1, h2, _⟩ := hb x hx
      cases h1.symm.trans hd
      exact absurd h2 (by decide)
    rcases List.mem_cons.1 hx with rfl | hx
    · cases hr.symm.trans hd
    · obtain ⟨m, h1, h2⟩ := ih x hx hd
      exact ⟨m, h1, by omega⟩

/-! ### The largest programs -/

/-- The steps `..a`. -/
def descentSteps (k : Nat) : Path := List.replicate k ⟨.nestMember, [.name (b! "a")]⟩

theorem written_descents (pf : Bytes → Option F64) : ∀ k : Nat,
    Written pf (List.replicate k [Token.path (.plain .nest), .path (nameTok (b! "a"))]).flatten (List.replicate k (b! "..a")).flatten
  | 0 => .nil [] (by simp [White, All])
  | k + 1 => by
    rw [List.replicate_succ, List.replicate_succ, List.flatten_cons, List.flatten_cons]
    refine .cons _ _ [] (b! "..") (b! "a" ++ (List.replicate k (b! "..a")).flatten) (by simp [Gap, White, All]) (.path _ _ _ (.nest _)) ?_
    refine .cons _ _ [] (b! "a") _ (by simp [Gap, White, All]) (.path _ _ _ (.name (c! 'a') [] _ (.inl ⟨by decide, by decide⟩) (by simp [All]) ?_)) (written_descents pf k)
    cases k with
    | zero => simp [Spec.Stops]
    | succ k =>
      rw [List.replicate_succ, List.flatten_cons]
      simp only [Spec.Stops]
      rintro c ⟨⟩
      simp only [LetterDigitDash, Letter, Digit]
      decide

theorem gsteps_descents (valid : Bytes → Bool) : ∀ k : Nat,
    GSteps valid (List.replicate k [Token.path (.plain .nest), .path (nameTok (b! "a"))]).flatten (descentSteps k)
  | 0 => .nil
  | k + 1 => by
    unfold descentSteps
    rw [List.replicate_succ, List.replicate_succ, List.flatten_cons]
    exact .cons _ _ _ _ (.nestMember _ _ (.name _)) (gsteps_descents valid k)

theorem parsePath_descending (env : Env) (k : Nat) : parsePath env (descending k) = .ok (descentSteps k) := by
  refine parsePath_iff.2 ⟨_, ?_, _, gsteps_descents _ k, rfl⟩
  exact .cons _ _ [] (b! "$") _ (by simp [Gap, White, All]) (.path _ _ _ (.punct _ _ (by decide))) (written_descents _ k)

theorem code_descent (p : Program) (h : p.vals = [] ∨ p.vals = [.name (b! "a")]) :
    ∃ os, codePathStep ⟨.nestMember, [.name (b! "a")]⟩ p = .ok ⟨[.name (b! "a")], os⟩ := by
  obtain ⟨vs, os⟩ := p
  simp only at h
  rcases h with rfl | rfl
  · exact ⟨_, rfl⟩
  · exact ⟨_, rfl⟩

theorem code_descents : ∀ (k : Nat) (p : Program), (p.vals = [] ∨ p.vals = [.name (b! "a")]) → ∃ q, codePath (descentSteps k) p = .ok q
  | 0, p, _ => ⟨p, rfl⟩
  | k + 1, p, h => by
    obtain ⟨os, h1⟩ := code_descent p h
    obtain ⟨q, h2⟩ := code_descents k ⟨[.name (b! "a")], os⟩ (.inr rfl)
    refine ⟨q, ?_⟩
    show (codePathStep _ p >>= codePath (descentSteps k)) = _
    rw [h1]
    exact h2

theorem size_descents : ∀ k : Nat, Path.size (descentSteps k) = 4 * k
  | 0 => rfl
  | k + 1 => by
    have := size_descents k
    unfold descentSteps at *
    rw [List.replicate_succ, Path.size, this]
    show 4 + _ = _
    omega

theorem length_descending (k : Nat) : (descending k).length = 3 * k + 1 := by
  simp [descending]
  omega

theorem Compile_descending (env : Env) (k : Nat) : ∃ p, Compile env (descending k) = .ok p ∧ p.prog.orders.length = 4 * k := by
  obtain ⟨q, hq⟩ := code_descents k ⟨[], []⟩ (.inl rfl)
  have h : Compile env (descending k) = .ok ⟨descending k, q⟩ := by
    unfold Compile
    rw [parsePath_descending]
    simp only
    rw [show compile (descentSteps k) = .ok q from hq]
  refine ⟨_, h, ?_⟩
  obtain ⟨path, h1, _, _, _, h2, _⟩ := Compile_ok h
  rw [parsePath_descending] at h1
  cases h1
  rw [h2, size_descents]

/-! ### The first that is too large -/

/-- The orders of the step number `i`. -/
def descentOrders (i : Nat) : List Order :=
  [mkSmall .nest (Int64.ofNat (4 * i + 4)), mkOrder .id 0, mkSmall .nestMember 1, mkSmall .rep (Int64.ofNat (4 * i + 1))]

theorem code_descent_orders (vs : List PVal) (os : List Order) (i : Nat) (h : vs = [] ∨ vs = [.name (b! "a")]) (hl : os.length = 4 * i) :
    codePathStep ⟨.nestMember, [.name (b! "a")]⟩ ⟨vs, os⟩ = .ok ⟨[.name (b! "a")], os ++ descentOrders i⟩ := by
  have key : codePathStep ⟨.nestMember, [.name (b! "a")]⟩ ⟨vs, os⟩ = .ok (patch os.length
      (mkSmall .nest (Int64.ofNat ((((os ++ [mkSmall .nest 0]) ++ [mkOrder .id 0]) ++ [mkSmall .nestMember 1]) ++ [mkSmall .rep (Int64.ofNat (os ++ [mkSmall .nest 0]).length)]).length))
      ⟨[.name (b! "a")], (((os ++ [mkSmall .nest 0]) ++ [mkOrder .id 0]) ++ [mkSmall .nestMember 1]) ++ [mkSmall .rep (Int64.ofNat (os ++ [mkSmall .nest 0]).length)]⟩) := by
    rcases h with rfl | rfl <;> rfl
  rw [key]
  simp only [patch, List.append_assoc, List.length_append, List.length_cons, List.length_nil, List.cons_append, List.nil_append]
  rw [List.set_append_right _ _ (by simp), hl]
  simp [descentOrders]

theorem code_descents_orders : ∀ (k i : Nat) (vs : List PVal) (os : List Order), (vs = [] ∨ vs = [.name (b! "a")]) → os.length = 4 * i → 0 < k →
    codePath (descentSteps k) ⟨vs, os⟩ = .ok ⟨[.name (b! "a")], os ++ (List.range' i k).flatMap descentOrders⟩
  | 0, _, _, _, _, _, h => by omega
  | k + 1, i, vs, os, h, hl, _ => by
    show (codePathStep _ ⟨vs, os⟩ >>= codePath (descentSteps k)) = _
    rw [code_descent_orders vs os i h hl, List.range'_succ, List.flatMap_cons, ← List.append_assoc]
    rcases Nat.eq_zero_or_pos k with rfl | hk
    · simp; rfl
    · exact code_descents_orders k (i + 1) _ _ (.inr rfl) (by simp [descentOrders, hl]; omega) hk

theorem get_descents : ∀ (k i j c : Nat), i ≤ j → j < i + k → c < 4 →
    ((List.range' i k).flatMap descentOrders)[4 * (j - i) + c]? = (descentOrders j)[c]?
  | 0, _, _, _, _, h, _ => by omega
  | k + 1, i, j, c, h1, h2, hc => by
    rw [List.range'_succ, List.flatMap_cons]
    have hl : (descentOrders i).length = 4 := rfl
    rcases Nat.eq_or_lt_of_le h1 with rfl | hlt
    · rw [List.getElem?_append_left (by omega)]
      congr 1
      omega
    · rw [List.getElem?_append_right (by omega), ← get_descents k (i + 1) j c hlt (by omega) hc, hl]
      congr 1
      omega

theorem step_nest (env : Env) (oracle : Oracle) (p : Program) (root : V) (s : MState) {t t' : Int64} (hp : (mkSmall .nest t).pc = some t')
    (h : s.out = some []) :
    step env oracle p root (mkSmall .nest t) s = branch p.orders.length t' { s with pc := s.pc + 1, tick := s.tick + 1 } := by
  have ho := does_small .nest t
  unfold Does at ho
  simp only [step, ho, exec, hp, looptop, h]
  rfl

/-- `$..a..a…` of just over 3 MB jumps to a negative number. -/
theorem descending_panics (env : Env) (oracle : Oracle) (N : Nat) (hN : N = 2 ^ 20) (p : JSONPath) (hc : Compile env (descending N) = .ok p) :
    Eval env oracle p (.int 5) = some (.panic "branch pc out of range") := by
  obtain ⟨path, h1, _, h2, _⟩ := Compile_ok hc
  rw [parsePath_descending] at h1
  cases h1
  unfold compile at h2
  rw [code_descents_orders N 0 [] [] (.inl rfl) rfl (by omega)] at h2
  have hprog : p.prog = ⟨[.name (b! "a")], (List.range' 0 N).flatMap descentOrders⟩ :=
    by simpa using (Res.ok.inj h2).symm
  have hlen : p.prog.orders.length = 2 ^ 22 := by
    obtain ⟨path, h1, _, _, _, h2, _⟩ := Compile_ok hc
    rw [parsePath_descending] at h1
    cases h1
    rw [h2, size_descents]
    omega
  have hget : ∀ j c, j < N → c < 4 → p.prog.orders[4 * j + c]? = (descentOrders j)[c]? := by
    intro j c hj hc
    have := get_descents N 0 j c (by omega) (by omega) hc
    rw [hprog]
    exact this
  have key : ∀ d (s : MState) (j : Nat), j + d + 1 = N → s.pc = 4 * j → s.out = some [] →
      runFuel env oracle p.prog (.int 5) (d + 1) s = some (.panic "branch pc out of range") := by
    intro d
    induction d with
    | zero =>
      intro s j hj hpc ho
      unfold runFuel
      rw [hpc, show p.prog.orders[4 * j]? = _ from hget j 0 (by omega) (by omega)]
      simp only [descentOrders, List.getElem?_cons_zero]
      rw [show 4 * j + 4 = 2 ^ 22 by omega, step_nest (t' := -4194304) env oracle _ _ s (by decide) ho]
      rfl
    | succ d ih =>
      intro s j hj hpc ho
      unfold runFuel
      rw [hpc, show p.prog.orders[4 * j]? = _ from hget j 0 (by omega) (by omega)]
      simp only [descentOrders, List.getElem?_cons_zero]
      rw [step_nest env oracle _ _ s (pc_small _ (by omega)) ho]
      unfold branch
      rw [if_neg]
      · simp only
        refine ih _ (j + 1) (by omega) ?_ ho
        simp only
        rw [Int64.toInt_ofNat_of_lt (by omega)]
        omega
      · rw [hlen]
        simp only [Bool.or_eq_true, decide_eq_true_eq, not_or, Int64.not_le, Int64.not_lt, gt_iff_lt]
        rw [Int64.lt_iff_toInt_lt, Int64.le_iff_toInt_le, Int64.toInt_ofNat_of_lt (by omega), Int64.toInt_ofNat_of_lt (by omega)]
        constructor
        · show (0 : Int) < _
          omega
        · omega
  have adv : ∀ {n : Nat} {s s' : MState} {o : Order} {r}, p.prog.orders[s.pc]? = some o → step env oracle p.prog (.int 5) o s = .ok s' →
      runFuel env oracle p.prog (.int 5) n s' = r → runFuel env oracle p.prog (.int 5) (n + 1) s = r := by
    intro n s s' o r h1 h2 h3
    unfold runFuel
    rw [h1]
    simp only
    rw [h2]
    exact h3
  refine run_of_runFuel (N - 2 + 1 + 1 + 1 + 1 + 1) _ ?_
  refine adv (s' := { MState.init (.int 5) with pc := 1, tick := 1, out := some [], values := [[]] }) (hget 0 0 (by omega) (by omega)) rfl ?_
  refine adv (s' := { MState.init (.int 5) with pc := 2, tick := 1, out := some [], values := [[]], stack := [.name (b! "a")] })
    (hget 0 1 (by omega) (by omega)) (by rw [hprog]; rfl) ?_
  refine adv (s' := { MState.init (.int 5) with pc := 3, tick := 1, out := some [], values := [[]] }) (hget 0 2 (by omega) (by omega)) rfl ?_
  refine adv (s' := { MState.init (.int 5) with pc := 4, tick := 1, out := some [] }) (hget 0 3 (by omega) (by omega)) rfl ?_
  exact key (N - 2) _ 1 (by omega) rfl rfl

theorem descending_shape (env : Env) (N : Nat) (hN : N = 2 ^ 20) (p : JSONPath) (hc : Compile env (descending N) = .ok p) :
    ¬ OrdersAndLoops 0 p.prog.orders := by
  intro h
  obtain ⟨path, h1, _, h2, _, hlen, _⟩ := Compile_ok hc
  rw [parsePath_descending] at h1
  cases h1
  unfold compile at h2
  rw [code_descents_orders N 0 [] [] (.inl rfl) rfl (by omega)] at h2
  have hprog : p.prog = ⟨[.name (b! "a")], (List.range' 0 N).flatMap descentOrders⟩ := by simpa using (Res.ok.inj h2).symm
  rw [size_descents] at hlen
  have hm : mkSmall .nest (Int64.ofNat (4 * (N - 1) + 4)) ∈ p.prog.orders := by
    rw [hprog]
    exact List.mem_flatMap.2 ⟨N - 1, List.mem_range'.2 ⟨N - 1, by omega, by omega⟩, by simp [descentOrders]⟩
  obtain ⟨m, h3, h4⟩ := loop_target h _ hm (does_small _ _)
  rw [show 4 * (N - 1) + 4 = 2 ^ 22 by omega, show (mkSmall .nest (Int64.ofNat (2 ^ 22))).pc = some (-4194304) by decide] at h3
  have h5 := congrArg Int64.toInt (Option.some.inj h3)
  rw [Int64.toInt_ofNat_of_lt (by omega)] at h5
  rw [show (-4194304 : Int64).toInt = -4194304 by decide] at h5
  omega

end JP
