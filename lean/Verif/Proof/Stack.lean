import Verif.Spec.Stack
import Verif.Proof.Program
import Verif.Proof.PathSize
/-! The values that an evaluation holds. -/
namespace JP
open Spec

/-! ### The heights of the stack -/

theorem totalOf_nil (f : Order → Int) : totalOf f [] = 0 := rfl

theorem totalOf_cons (f : Order → Int) (o : Order) (os : List Order) : totalOf f (o :: os) = f o + totalOf f os := by simp [totalOf]

theorem totalOf_append (f : Order → Int) (xs ys : List Order) : totalOf f (xs ++ ys) = totalOf f xs + totalOf f ys := by simp [totalOf]

theorem totalOf_zero {f : Order → Int} : ∀ {os : List Order}, (∀ o ∈ os, f o = 0) → totalOf f os = 0
  | [], _ => rfl
  | o :: os, h => by rw [totalOf_cons, h o (by simp), totalOf_zero fun x hx => h x (by simp [hx])]; rfl

theorem rise_does {o : Order} {op : Op} (h : Does o op) : rise o = (takesLeaves o op).2 - (takesLeaves o op).1 := by
  unfold rise; rw [h]

theorem opens_straight {o : Order} (h : Straightforward o) : opens o = 0 := by
  obtain ⟨op, h1, h2, _⟩ := h
  unfold opens
  rw [h1]
  cases op <;> first | rfl | exact absurd h2 (by decide)

mutual
/-- How many values an expression may have on the stack. -/
def Expr.pushes : Expr → Nat
  | .inner _ kids => max 1 (Exprs.pushes kids)
  | _ => 1
def Exprs.pushes : List Expr → Nat
  | [] => 0
  | e :: r => e.pushes + Exprs.pushes r
end

def Val.pushes : Val → Nat
  | .expr e => e.pushes
  | _ => 1

def Vals.pushes : List Val → Nat
  | [] => 0
  | v :: r => v.pushes + Vals.pushes r

theorem one_le_pushes (e : Expr) : 1 ≤ e.pushes := by
  cases e <;> simp only [Expr.pushes] <;> omega

theorem one_le_vpushes (v : Val) : 1 ≤ v.pushes := by
  cases v <;> simp only [Val.pushes] <;> first | omega | exact one_le_pushes _

/-- Orders that do not jump, with which the stack rises by `d` and not above `m` on the way. -/
structure Climbs (body : List Order) (d : Int) (m : Nat) : Prop where
  straight : ∀ o ∈ body, Straightforward o
  all : totalOf rise body = d
  most : ∀ k, totalOf rise (body.take k) ≤ m

theorem Climbs.append {b1 b2 : List Order} {d1 d2 : Int} {m1 m2 : Nat} {m : Nat} (h1 : Climbs b1 d1 m1) (h2 : Climbs b2 d2 m2)
    (hm1 : m1 ≤ m) (hm2 : d1 + m2 ≤ m) : Climbs (b1 ++ b2) (d1 + d2) m := by
  refine ⟨fun o ho => (List.mem_append.1 ho).elim (h1.straight o) (h2.straight o), by rw [totalOf_append, h1.all, h2.all], fun k => ?_⟩
  rw [List.take_append, totalOf_append]
  by_cases hk : k ≤ b1.length
  · rw [show k - b1.length = 0 by omega, List.take_zero, totalOf_nil]
    have := h1.most k
    omega
  · rw [List.take_of_length_le (by omega), h1.all]
    have := h2.most (k - b1.length)
    omega

theorem climbs_one {o : Order} {d : Int} {m : Nat} (h : Straightforward o) (hd : rise o = d) (hm : d ≤ m) : Climbs [o] d m := by
  refine ⟨by rintro x hx; rw [List.mem_singleton.1 hx]; exact h, by rw [totalOf_cons, hd, totalOf_nil]; omega, fun k => ?_⟩
  cases k with
  | zero => simp [totalOf]
  | succ k => rw [List.take_of_length_le (by simp), totalOf_cons, hd, totalOf_nil]; omega

theorem climbs_nil (m : Nat) : Climbs [] 0 m := ⟨by simp, rfl, by simp [totalOf]⟩

theorem Climbs.mono {body : List Order} {d : Int} {m m' : Nat} (h : Climbs body d m) (hm : m ≤ m') : Climbs body d m' :=
  ⟨h.straight, h.all, fun k => by have := h.most k; omega⟩

/-- A part of the coder that adds such orders, at least `l`. -/
def AddsRise (p : Program) (r : Res CErr Program) (d : Int) (l m : Nat) : Prop :=
  p.Small → ∀ p', r = .ok p' → p'.Small ∧ ∃ body, p'.orders = p.orders ++ body ∧ l ≤ body.length ∧
    (p'.orders.length < 2 ^ 22 → Climbs body d m)

theorem AddsRise.bind {p : Program} {r : Res CErr Program} {f : Program → Res CErr Program} {d1 d2 : Int} {l1 l2 m1 m2 m : Nat}
    (h : AddsRise p r d1 l1 m1) (h' : ∀ q, AddsRise q (f q) d2 l2 m2) (hm1 : m1 ≤ m) (hm2 : d1 + m2 ≤ m) :
    AddsRise p (r >>= f) (d1 + d2) (l1 + l2) m := by
  intro hp p' hr
  obtain ⟨q, hq, hf⟩ := bind_eq_ok hr
  obtain ⟨h1, b1, h2, h3, h4⟩ := h hp q hq
  obtain ⟨h5, b2, h6, h7, h8⟩ := h' q h1 p' hf
  refine ⟨h5, b1 ++ b2, by rw [h6, h2, List.append_assoc], by rw [List.length_append]; omega, fun hl => ?_⟩
  refine (h4 ?_).append (h8 hl) hm1 hm2
  rw [h6, List.length_append] at hl
  omega

theorem addsRise_nil (p : Program) (m : Nat) : AddsRise p (.ok p) 0 0 m := by
  rintro hp p' h
  cases h
  exact ⟨hp, [], by simp, by simp, fun _ => climbs_nil m⟩

/-- A leaf. -/
theorem addsRise_leaf {op : Op} (n : Int64) (p : Program) (h : ∀ o, takesLeaves o op = (0, 1)) (h1 : op ∉ loopOps) (h2 : op ∉ unusedOps) :
    AddsRise p (.ok (asm (mkSmall op n) p)) 1 1 1 := by
  rintro hp p' hr
  cases hr
  exact ⟨hp, [_], rfl, by simp, fun _ => climbs_one ⟨op, does_small op n, h1, h2⟩ (by rw [rise_does (does_small op n), h]; rfl) (by omega)⟩

theorem addsRise_codeOp {op : Op} (v : PVal) (p : Program) (h : ∀ o, takesLeaves o op = (0, 1)) (h1 : op ∉ loopOps) (h2 : op ∉ unusedOps) :
    AddsRise p (codeOp op (some v) p) 1 1 1 := by
  rintro hp p' hr
  obtain ⟨o, e1, _, e3, e4⟩ := codeOp_ok hr hp
  have hd : Does o op := by
    rcases e4 with ⟨n, _, _, rfl⟩ | ⟨i, w, rfl, hi, _⟩
    · exact does_small op n
    · exact does_order op i hi
  exact ⟨e3, [o], e1, by simp, fun _ => climbs_one ⟨op, hd, h1, h2⟩ (by rw [rise_does hd, h]; rfl) (by omega)⟩

/-- An operator after its operands. -/
theorem AddsRise.op {p : Program} {r : Res CErr Program} {l m : Nat} (h : AddsRise p r l l m) (op : Op) (d : Int)
    (h1 : op ∉ loopOps) (h2 : op ∉ unusedOps)
    (hd : ∀ o : Order, o.smallInt.toInt = l → (takesLeaves o op).2 - (takesLeaves o op).1 = d - l) (hdm : d ≤ max 1 m) :
    AddsRise p (r >>= fun q => .ok (asm (mkSmall op (Int64.ofNat l)) q)) d 1 (max 1 m) := by
  intro hp p' hr
  obtain ⟨q, hq, hf⟩ := bind_eq_ok hr
  obtain ⟨h3, b1, h4, h5, h6⟩ := h hp q hq
  cases hf
  refine ⟨h3, b1 ++ [mkSmall op (Int64.ofNat l)], by simp [asm, h4], by simp, fun hl => ?_⟩
  simp only [asm, h4, List.length_append, List.length_cons, List.length_nil] at hl
  have hs : (mkSmall op (Int64.ofNat l)).smallInt.toInt = l := by
    rw [mkSmall_smallInt, Int64.toInt_ofNat_of_lt (by omega)]
    rw [Int64.small_iff, Int64.toInt_ofNat_of_lt (by omega)]
    omega
  have ho : Climbs [mkSmall op (Int64.ofNat l)] (d - l) (d - l).toNat :=
    climbs_one ⟨op, does_small op _, h1, h2⟩ (by rw [rise_does (does_small op _), hd _ hs]) (by omega)
  have h6 := h6 (by rw [h4, List.length_append]; omega)
  have hlm := h6.most b1.length
  rw [List.take_length, h6.all] at hlm
  have := h6.append (m := max 1 m) ho (by omega) (by omega)
  rwa [show (l : Int) + (d - l) = d by omega] at this

mutual
theorem addsRise_codeExpr : ∀ (e : Expr) (_ : e.WF) (p : Program), AddsRise p (codeExpr e p) 1 1 e.pushes
  | .int n, _, p => by
    unfold codeExpr
    split
    · exact addsRise_leaf _ p (fun _ => rfl) (by decide) (by decide)
    · exact addsRise_codeOp _ p (fun _ => rfl) (by decide) (by decide)
  | .float f, _, p => by unfold codeExpr; exact addsRise_codeOp _ p (fun _ => rfl) (by decide) (by decide)
  | .str f, _, p => by unfold codeExpr; exact addsRise_codeOp _ p (fun _ => rfl) (by decide) (by decide)
  | .name f, _, p => by unfold codeExpr; exact addsRise_codeOp _ p (fun _ => rfl) (by decide) (by decide)
  | .re f, _, p => by unfold codeExpr; exact addsRise_codeOp _ p (fun _ => rfl) (by decide) (by decide)
  | .bool b, _, p => by unfold codeExpr; exact addsRise_leaf _ p (fun _ => rfl) (by decide) (by decide)
  | .null, _, p => by unfold codeExpr; exact addsRise_leaf _ p (fun _ => rfl) (by decide) (by decide)
  | .current, _, p => by unfold codeExpr; exact addsRise_leaf _ p (fun _ => rfl) (by decide) (by decide)
  | .root, _, p => by unfold codeExpr; exact addsRise_leaf _ p (fun _ => rfl) (by decide) (by decide)
  | .inner op kids, h, p => by
    unfold codeExpr
    rw [if_neg (by rw [notLeaf_of_wf h]; decide)]
    refine (addsRise_codeKids kids (kids_of_wf h) p).op op 1 (inner_op h).1 (inner_op h).2 ?_ (by omega)
    intro o ho
    cases h with
    | unary _ _ h => cases op <;> first | (cases h; done) | rfl
    | binary _ _ _ h => cases op <;> first | (cases h; done) | rfl
    | dot => rfl
    | array => simp only [takesLeaves, ho]
    | call => simp only [takesLeaves, ho]
theorem addsRise_codeKids : ∀ (es : List Expr) (_ : Exprs.WF es) (p : Program),
    AddsRise p (codeKids es p) es.length es.length (Exprs.pushes es)
  | [], _, p => by unfold codeKids; exact addsRise_nil p _
  | e :: r, h, p => by
    unfold codeKids
    have : e.WF ∧ Exprs.WF r := by cases h with | cons _ _ h1 h2 => exact ⟨h1, h2⟩
    have h1 := one_le_pushes e
    have := (addsRise_codeExpr e this.1 p).bind (m := Exprs.pushes (e :: r)) (fun q => addsRise_codeKids r this.2 q)
      (by simp only [Exprs.pushes]; omega) (by simp only [Exprs.pushes]; omega)
    rw [List.length_cons]
    rwa [show (1 : Int) + r.length = ((r.length + 1 : Nat) : Int) by omega, Nat.add_comm 1] at this
end

theorem addsRise_codeVal (v : Val) (h : v.WF) (p : Program) : AddsRise p (codeVal (valOp v) v p) 1 1 v.pushes := by
  cases v with
  | expr e => exact addsRise_codeExpr e h p
  | int n => exact addsRise_codeOp (.int n) p (fun _ => rfl) (by simp [valOp, loopOps]) (by simp [valOp, unusedOps])
  | str n => exact addsRise_codeOp (.str n) p (fun _ => rfl) (by simp [valOp, loopOps]) (by simp [valOp, unusedOps])
  | name n => exact addsRise_codeOp (.name n) p (fun _ => rfl) (by simp [valOp, loopOps]) (by simp [valOp, unusedOps])
  | slice n => exact addsRise_codeOp (.slice n) p (fun _ => rfl) (by simp [valOp, loopOps]) (by simp [valOp, unusedOps])

theorem addsRise_codeArgs : ∀ (vs : List Val) (_ : ∀ v ∈ vs, v.WF) (p : Program),
    AddsRise p (codeArgs vs p) vs.length vs.length (Vals.pushes vs)
  | [], _, p => by unfold codeArgs; exact addsRise_nil p _
  | v :: r, h, p => by
    unfold codeArgs
    have h1 := one_le_vpushes v
    have := (addsRise_codeVal v (h v (by simp)) p).bind (m := Vals.pushes (v :: r))
      (fun q => addsRise_codeArgs r (fun v hm => h v (by simp [hm])) q)
      (by simp only [Vals.pushes]; omega) (by simp only [Vals.pushes]; omega)
    rw [List.length_cons]
    rwa [show (1 : Int) + r.length = ((r.length + 1 : Nat) : Int) by omega, Nat.add_comm 1] at this

theorem addsRise_codeStep (s : Step) (h : s.WF) (p : Program) : AddsRise p (codeStep s p) 0 1 (max 1 (Vals.pushes s.args)) := by
  unfold codeStep
  have hop := h.2
  refine (addsRise_codeArgs s.args h.1 p).op s.op 0 ?_ ?_ ?_ (by omega)
  · cases ho : s.op <;> rw [ho] at hop <;> first | decide | exact hop.elim
  · cases ho : s.op <;> rw [ho] at hop <;> first | decide | exact hop.elim
  · intro o hs
    cases ho : s.op <;> rw [ho] at hop <;> first
      | exact hop.elim
      | (simp only [takesLeaves, hs]; done)
      | (rw [hop]; rfl)
      | (obtain ⟨v, hv⟩ := hop; rw [hv]; rfl)

/-- Steps one after the other, from the order number `n` on. -/
inductive Blocks (m : Nat) : Nat → List Order → Prop
  | nil (n) : Blocks m n []
  | flat (n body os) : Climbs body 0 m → Blocks m (n + body.length) os → Blocks m n (body ++ os)
  | loop (n f body r os) : Does f .for_ ∨ Does f .nest → f.pc = some (Int64.ofNat (n + body.length + 2)) →
      Climbs body 0 m → Does r .rep → r.pc = some (Int64.ofNat (n + 1)) →
      Blocks m (n + body.length + 2) os → Blocks m n (f :: (body ++ r :: os))

/-- A part of the coder that adds steps. -/
def AddsBlocks (p : Program) (r : Res CErr Program) (m : Nat) : Prop :=
  p.Small → ∀ p', r = .ok p' → p'.Small ∧
    ∃ os, p'.orders = p.orders ++ os ∧ (p'.orders.length < 2 ^ 22 → ∀ us, Blocks m p'.orders.length us → Blocks m p.orders.length (os ++ us))

theorem AddsRise.blocks {p : Program} {r : Res CErr Program} {l m m' : Nat} (h : AddsRise p r 0 l m) (hm : m ≤ m') : AddsBlocks p r m' := by
  intro hp p' hr
  obtain ⟨h1, body, h2, _, h3⟩ := h hp p' hr
  refine ⟨h1, body, h2, fun hl us hu => .flat _ _ _ ((h3 hl).mono hm) ?_⟩
  rwa [h2, List.length_append] at hu

theorem addsBlocks_codeLoop (s : Step) (h : s.WF) (op : Op) (ho : op = .for_ ∨ op = .nest) (p : Program) {m : Nat}
    (hm : max 1 (Vals.pushes s.args) ≤ m) : AddsBlocks p (codeLoop s op p) m := by
  intro hp p' hr
  unfold codeLoop at hr
  simp only at hr
  obtain ⟨q, hq, hr⟩ := bind_eq_ok hr
  obtain ⟨h1, body, h2, _, h3⟩ := addsRise_codeStep s h (asm (mkSmall op 0) p) hp q hq
  cases hr
  have e : (patch p.orders.length
      (mkSmall op (Int64.ofNat (asm (mkSmall .rep (Int64.ofNat (asm (mkSmall op 0) p).orders.length)) q).orders.length))
      (asm (mkSmall .rep (Int64.ofNat (asm (mkSmall op 0) p).orders.length)) q)).orders =
      p.orders ++ (mkSmall op (Int64.ofNat (p.orders.length + body.length + 2)) :: (body ++ [mkSmall .rep (Int64.ofNat (p.orders.length + 1))])) := by
    simp only [patch, asm] at h2 ⊢
    rw [h2]
    simp only [List.append_assoc, List.length_append, List.length_cons, List.length_nil]
    rw [List.set_append_right _ _ (by simp)]
    simp only [Nat.sub_self, List.cons_append, List.nil_append, List.set_cons_zero]
    congr 4
    omega
  refine ⟨h1, _, e, fun hl us hu => ?_⟩
  rw [e] at hl hu
  simp only [List.length_append, List.length_cons, List.length_nil] at hl hu
  rw [List.cons_append, List.append_assoc]
  refine .loop _ _ _ _ _ ?_ (pc_small _ (by omega)) ((h3 ?_).mono hm) (does_small _ _) (pc_small _ (by omega)) ?_
  · rcases ho with rfl | rfl
    · exact .inl (does_small _ _)
    · exact .inr (does_small _ _)
  · rw [h2]; simp only [asm, List.length_append, List.length_cons, List.length_nil]; omega
  · rwa [show p.orders.length + (body.length + (0 + 1) + 1) = p.orders.length + body.length + 2 by omega] at hu

theorem addsBlocks_codePathStep (s : Step) (h : s.WF) (p : Program) {m : Nat} (hm : max 1 (Vals.pushes s.args) ≤ m) :
    AddsBlocks p (codePathStep s p) m := by
  have hno : (s.op.isLeaf && s.op.hasVal) = false := by
    have := h.2
    cases hop : s.op <;> rw [hop] at this <;> first | rfl | exact this.elim
  unfold codePathStep
  rw [if_neg (by rw [hno]; decide)]
  cases s.op <;> first
    | exact addsBlocks_codeLoop s h _ (.inl rfl) p hm
    | exact addsBlocks_codeLoop s h _ (.inr rfl) p hm
    | exact (addsRise_codeStep s h p).blocks hm

theorem addsBlocks_codePath : ∀ (path : Path) (_ : path.WF) (p : Program) {m : Nat} (_ : ∀ s ∈ path, max 1 (Vals.pushes s.args) ≤ m),
    AddsBlocks p (codePath path p) m
  | [], _, p, m, _ => by unfold codePath; exact (addsRise_nil p 0).blocks (by omega)
  | s :: r, h, p, m, hm => by
    unfold codePath
    intro hp p' hr
    obtain ⟨q, hq, hf⟩ := bind_eq_ok hr
    obtain ⟨h1, o1, h2, h3⟩ := addsBlocks_codePathStep s (h s (by simp)) p (hm s (by simp)) hp q hq
    obtain ⟨h4, o2, h5, h6⟩ := addsBlocks_codePath r (fun v hv => h v (by simp [hv])) q (fun v hv => hm v (by simp [hv])) h1 p' hf
    refine ⟨h4, o1 ++ o2, by rw [h5, h2, List.append_assoc], fun hl us hu => ?_⟩
    rw [List.append_assoc]
    refine h3 ?_ _ (h6 hl us hu)
    rw [h5, List.length_append] at hl
    omega

theorem compile_blocks {path : Path} (h : path.WF) {p : Program} (hc : compile path = .ok p) (hl : p.orders.length < 2 ^ 22) {m : Nat}
    (hm : ∀ s ∈ path, max 1 (Vals.pushes s.args) ≤ m) : Blocks m 0 p.orders := by
  obtain ⟨_, os, h1, h2⟩ := addsBlocks_codePath path h ⟨[], []⟩ hm (by simp [Program.Small]) p hc
  have := h2 hl [] (.nil _)
  rw [h1]
  simpa using this

/-! ### What is known of each order -/

/-- What holds at the order number `k`. -/
def Good (m : Nat) (os : List Order) (k : Nat) : Prop :=
  totalOf rise (os.take k) ≤ m ∧ totalOf opens (os.take k) ≤ 1 ∧ (os.length ≤ k → totalOf rise (os.take k) = 0 ∧ totalOf opens (os.take k) = 0) ∧
  ∀ o, os[k]? = some o → Straightforward o ∨
    ((Does o .for_ ∨ Does o .nest ∨ Does o .rep) ∧ totalOf rise (os.take k) = 0 ∧ ∃ t, o.pc = some (Int64.ofNat t) ∧ 0 < t ∧ t ≤ os.length ∧
      totalOf rise (os.take t) = totalOf rise (os.take k) ∧ totalOf opens (os.take t) = totalOf opens (os.take k))

theorem rise_loop {o : Order} (h : Does o .for_ ∨ Does o .nest ∨ Does o .rep) : rise o = 0 := by
  rcases h with h | h | h <;> rw [rise_does h] <;> rfl

theorem opens_for {o : Order} (h : Does o .for_ ∨ Does o .nest) : opens o = 1 := by
  unfold opens
  rcases h with h | h <;> rw [h]

theorem opens_rep {o : Order} (h : Does o .rep) : opens o = -1 := by
  unfold opens
  rw [h]

theorem Climbs.opens {body : List Order} {d : Int} {m : Nat} (h : Climbs body d m) (k : Nat) : totalOf opens (body.take k) = 0 :=
  totalOf_zero fun o ho => opens_straight (h.straight o (List.mem_of_mem_take ho))

theorem good_of_blocks {m : Nat} {n : Nat} {os : List Order} (h : Blocks m n os) : ∀ pre : List Order, pre.length = n →
    totalOf rise pre = 0 → totalOf opens pre = 0 → ∀ k, n ≤ k → Good m (pre ++ os) k := by
  induction h with
  | nil n =>
    intro pre hn h1 h2 k hk
    rw [List.append_nil]
    unfold Good
    rw [List.take_of_length_le (by omega), h1, h2, List.getElem?_eq_none (by omega)]
    simp
  | flat n body os hc _ ih =>
    intro pre hn h1 h2 k hk
    by_cases hb : n + body.length ≤ k
    · rw [← List.append_assoc]
      refine ih (pre ++ body) (by simp [hn]) (by rw [totalOf_append, h1, hc.all]; rfl) ?_ k hb
      have := hc.opens body.length
      rw [List.take_length] at this
      rw [totalOf_append, h2, this]
      rfl
    · have et : (pre ++ (body ++ os)).take k = pre ++ body.take (k - n) := by
        rw [List.take_append, List.take_of_length_le (by omega), hn, List.take_append, show k - n - body.length = 0 by omega]
        simp
      unfold Good
      rw [et, totalOf_append, totalOf_append, h1, h2, hc.opens]
      have := hc.most (k - n)
      refine ⟨by omega, by omega, fun hl => ?_, fun o ho => .inl ?_⟩
      · simp only [List.length_append] at hl; omega
      · rw [List.getElem?_append_right (by omega), List.getElem?_append_left (by omega)] at ho
        exact hc.straight o (List.mem_of_getElem? ho)
  | loop n f body r os hf hfp hc hr hrp _ ih =>
    intro pre hn h1 h2 k hk
    have hall : totalOf opens body = 0 := by have := hc.opens body.length; rwa [List.take_length] at this
    have hrf := rise_loop (hf.imp_right .inl)
    have hrr := rise_loop (.inr (.inr hr))
    have hof := opens_for hf
    have hor := opens_rep hr
    have el : (pre ++ f :: (body ++ r :: os)).length = n + body.length + 2 + os.length := by simp [hn]; omega
    have e1 : (pre ++ f :: (body ++ r :: os)).take (n + 1) = pre ++ [f] := by
      rw [List.take_append, List.take_of_length_le (by omega), hn]; simp
    have e2 : (pre ++ f :: (body ++ r :: os)).take (n + body.length + 2) = pre ++ (f :: (body ++ [r])) := by
      rw [List.take_append, List.take_of_length_le (by omega), hn, show n + body.length + 2 - n = body.length + 2 by omega,
        List.take_succ_cons, List.take_append, List.take_of_length_le (by omega)]
      simp
    by_cases hb : n + body.length + 2 ≤ k
    · have := ih (pre ++ (f :: (body ++ [r]))) (by simp [hn]; omega)
        (by rw [totalOf_append, totalOf_cons, totalOf_append, totalOf_cons, totalOf_nil, h1, hc.all, hrf, hrr]; rfl)
        (by rw [totalOf_append, totalOf_cons, totalOf_append, totalOf_cons, totalOf_nil, h2, hall, hof, hor]; rfl) k hb
      simpa using this
    · by_cases hk0 : k = n
      · subst hk0
        have et : (pre ++ f :: (body ++ r :: os)).take k = pre := by
          rw [List.take_append, List.take_of_length_le (by omega), hn]; simp
        unfold Good
        rw [et, h1, h2]
        refine ⟨by omega, by omega, fun _ => by simp, fun o ho => .inr ?_⟩
        rw [List.getElem?_append_right (by omega), hn, Nat.sub_self] at ho
        cases ho
        refine ⟨hf.imp_right .inl, rfl, _, hfp, by omega, by omega, ?_, ?_⟩
        · rw [e2, totalOf_append, totalOf_cons, totalOf_append, totalOf_cons, totalOf_nil, h1, hc.all, hrf, hrr]; rfl
        · rw [e2, totalOf_append, totalOf_cons, totalOf_append, totalOf_cons, totalOf_nil, h2, hall, hof, hor]; rfl
      · obtain ⟨j, rfl⟩ : ∃ j, k = n + 1 + j := ⟨k - n - 1, by omega⟩
        have hj : j ≤ body.length := by omega
        have et : (pre ++ f :: (body ++ r :: os)).take (n + 1 + j) = pre ++ f :: body.take j := by
          rw [List.take_append, List.take_of_length_le (by omega), hn, show n + 1 + j - n = j + 1 by omega, List.take_succ_cons,
            List.take_append, show j - body.length = 0 by omega]
          simp
        have hge : (pre ++ f :: (body ++ r :: os))[n + 1 + j]? = (body ++ r :: os)[j]? := by
          rw [List.getElem?_append_right (by omega), hn, show n + 1 + j - n = j + 1 by omega, List.getElem?_cons_succ]
        have hm := hc.most j
        have ho' := hc.opens j
        unfold Good
        rw [et, totalOf_append, totalOf_append, totalOf_cons, totalOf_cons, h1, h2, hrf, hof, ho', hge]
        refine ⟨by omega, by omega, fun hl => ?_, fun o ho => ?_⟩
        · omega
        · by_cases hjb : j < body.length
          · rw [List.getElem?_append_left hjb] at ho
            exact .inl (hc.straight o (List.mem_of_getElem? ho))
          · have : j = body.length := by omega
            subst this
            rw [List.getElem?_append_right (by omega), Nat.sub_self] at ho
            cases ho
            refine .inr ⟨.inr (.inr hr), by rw [List.take_length, hc.all]; rfl, _, hrp, by omega, by omega, ?_, ?_⟩
            · rw [e1, totalOf_append, totalOf_cons, totalOf_nil, h1, hrf, List.take_length, hc.all]
            · rw [e1, totalOf_append, totalOf_cons, totalOf_nil, h2, hof]

/-! ### What an order does -/

theorem popN_ok {n : Int64} {stack : List V} {r : List V × List V} (hs : stack.length < 2 ^ 22) (h : popN n stack = .ok r) :
    (r.2.length : Int) = stack.length - n.toInt := by
  unfold popN at h
  split at h
  · cases h
  · rename_i h1
    split at h
    · cases h
    · rename_i h2
      cases h
      rw [Int64.lt_iff_toInt_lt, Int64.toInt_ofNat_of_lt (by omega)] at h1
      rw [Int64.lt_iff_toInt_lt] at h2
      simp only [List.length_drop]
      have : (0 : Int64).toInt = 0 := rfl
      omega

/-- An order that does not jump. -/
theorem exec_straight {env : Env} {oracle : Oracle} {prog : Program} {root : V} {o : Order} {op : Op} {s s' : MState}
    (hs : s.stack.length < 2 ^ 22) (h1 : op ∉ loopOps) (h : exec env oracle prog root o op s = .ok s') :
    s'.pc = s.pc ∧ s'.values = s.values ∧ (s'.stack.length : Int) = s.stack.length + ((takesLeaves o op).2 - (takesLeaves o op).1) := by
  have hpush : ∀ v, (s.push v).pc = s.pc ∧ (s.push v).values = s.values ∧ ((s.push v).stack.length : Int) = s.stack.length + ((1:Int) - 0) := by
    intro v; simp [MState.push]
  have hval : ∀ s', pushVal prog o s = .ok s' → s'.pc = s.pc ∧ s'.values = s.values ∧ (s'.stack.length : Int) = s.stack.length + ((1:Int) - 0) := by
    intro s' h
    unfold pushVal at h
    split at h
    · cases h
    · split at h
      · cases h; exact hpush _
      · cases h
  cases op <;> unfold exec at h <;> dsimp only at h <;> first
    | exact absurd h1 (by decide)
    | (cases h; done)
    | exact hval _ h
    | (cases h; exact hpush _)
    | (cases h; simp [takesLeaves]; done)
    | (split at h <;> first | (cases h; done) | (cases h; exact hpush _) | exact hval _ h)
    | (split at h
       · cases h
       · rename_i he
         split at h
         · cases h; simp [takesLeaves, he]
         · first
           | (cases h; done)
           | (obtain ⟨out, _, h⟩ := bind_eq_ok h; cases h; simp [takesLeaves, he])
           | (cases h; simp [takesLeaves, he]))
    | (obtain ⟨r, hr, h⟩ := bind_eq_ok h
       have := popN_ok hs hr
       obtain ⟨out, _, h⟩ := bind_eq_ok h
       cases h
       refine ⟨rfl, rfl, ?_⟩
       simp only [takesLeaves]
       omega)
    | (obtain ⟨out, _, h⟩ := bind_eq_ok h
       cases h
       simp [takesLeaves]; done)
    | (split at h
       · rename_i he
         split at h
         · obtain ⟨v, _, h⟩ := bind_eq_ok h
           cases h
           refine ⟨rfl, rfl, ?_⟩
           simp only [takesLeaves, he, List.length_cons]
           omega
         · cases h
       · cases h)
    | (obtain ⟨r, hr, h⟩ := bind_eq_ok h
       have := popN_ok hs hr
       cases h
       refine ⟨rfl, rfl, ?_⟩
       simp only [takesLeaves, List.length_cons]
       omega)
    | (obtain ⟨r, hr, h⟩ := bind_eq_ok h
       have := popN_ok hs hr
       split at h
       · obtain ⟨v, _, h⟩ := bind_eq_ok h
         cases h
         refine ⟨rfl, rfl, ?_⟩
         simp only [takesLeaves, List.length_cons]
         omega
       · cases h
       · cases h)

theorem branch_pc {size t : Nat} {s s' : MState} (ht : t < 2 ^ 22) (h : branch size (Int64.ofNat t) s = .ok s') : s' = { s with pc := t } := by
  unfold branch at h
  split at h
  · cases h
  · cases h
    rw [Int64.toInt_ofNat_of_lt (by omega)]
    rfl

theorem looptop_ok {size t : Nat} {vals : List V} {s s' : MState} (ht : t < 2 ^ 22) (h : looptop size (Int64.ofNat t) vals s = .ok s') :
    s'.stack = s.stack ∧ ((s'.pc = t ∧ s'.values = s.values) ∨ (s'.pc = s.pc ∧ s'.values.length = s.values.length + 1)) := by
  unfold looptop at h
  split at h
  · rw [branch_pc ht h]; simp
  · cases h; simp

/-- An order that may jump. -/
theorem exec_loop {env : Env} {oracle : Oracle} {prog : Program} {root : V} {o : Order} {op : Op} {s s' : MState} {t : Nat}
    (ht : t < 2 ^ 22) (hp : o.pc = some (Int64.ofNat t)) (h1 : op ∈ loopOps) (h : exec env oracle prog root o op s = .ok s') :
    s'.stack = s.stack ∧ ((s'.pc = t ∧ s'.values.length = s.values.length) ∨
      (s'.pc = s.pc ∧ (s'.values.length : Int) = s.values.length + (if op = .rep then -1 else 1))) := by
  have : op = .for_ ∨ op = .nest ∨ op = .rep := by simpa [loopOps] using h1
  rcases this with rfl | rfl | rfl <;> unfold exec at h <;> dsimp only at h
  · rw [hp] at h
    obtain ⟨h2, h3⟩ := looptop_ok ht h
    refine ⟨h2, h3.imp (fun h => ⟨h.1, by rw [h.2]⟩) (fun h => ⟨h.1, ?_⟩)⟩
    rw [h.2]; simp
  · rw [hp] at h
    obtain ⟨h2, h3⟩ := looptop_ok ht h
    refine ⟨h2, h3.imp (fun h => ⟨h.1, by rw [h.2]⟩) (fun h => ⟨h.1, ?_⟩)⟩
    rw [h.2]; simp
  · split at h
    · cases h
    · rename_i hv
      cases h
      simp [hv]
    · rename_i hv
      rw [hp] at h
      rw [branch_pc ht h]
      simp [hv]

/-! ### The invariant -/

theorem take_succ_total {f : Order → Int} {os : List Order} {k : Nat} {o : Order} (h : os[k]? = some o) :
    totalOf f (os.take (k + 1)) = totalOf f (os.take k) + f o := by
  rw [List.take_add_one, h, totalOf_append]
  simp [totalOf]

theorem during_heights {env : Env} {oracle : Oracle} {p : JSONPath} {root : V} {m : Nat} (hm : m < 2 ^ 22)
    (hl : p.prog.orders.length < 2 ^ 22) (hb : Blocks m 0 p.prog.orders) {s : MState} (h : During env oracle p root s) :
    (s.stack.length : Int) = totalOf rise (p.prog.orders.take s.pc) ∧ (s.values.length : Int) = totalOf opens (p.prog.orders.take s.pc) := by
  have good : ∀ k, Good m p.prog.orders k := fun k => good_of_blocks hb [] rfl rfl rfl k (by omega)
  induction h with
  | start => simp [MState.init, totalOf]
  | order s o s' _ ho hstep ih =>
    obtain ⟨g1, g2, g3, g4⟩ := good s.pc
    have hs : s.stack.length < 2 ^ 22 := by omega
    rcases g4 o ho with hst | ⟨hd, _, t, hp, ht0, htl, e1, e2⟩
    · have hopens := opens_straight hst
      obtain ⟨op, hd, h1, _⟩ := hst
      unfold step at hstep
      simp only at hstep
      rw [hd] at hstep
      obtain ⟨h2, h3, h4⟩ := exec_straight (s := { s with pc := s.pc + 1 }) hs h1 hstep
      rw [h2, h3, h4, take_succ_total ho, take_succ_total ho, rise_does hd, hopens, ← ih.1, ← ih.2]
      exact ⟨rfl, by simp⟩
    · have hrise := rise_loop hd
      have key : ∀ op, Does o op → op ∈ loopOps → opens o = (if op = .rep then -1 else 1) →
          (s'.stack.length : Int) = totalOf rise (p.prog.orders.take s'.pc) ∧ (s'.values.length : Int) = totalOf opens (p.prog.orders.take s'.pc) := by
        intro op hd h1 hop
        unfold step at hstep
        simp only at hstep
        rw [hd] at hstep
        obtain ⟨h2, h3⟩ := exec_loop (s := { s with pc := s.pc + 1 }) (by omega) hp h1 hstep
        rw [h2]
        rcases h3 with ⟨h3, h4⟩ | ⟨h3, h4⟩
        · rw [h3, e1, e2, h4]; exact ih
        · rw [h3, h4, take_succ_total ho, take_succ_total ho, hrise, hop, ← ih.1, ← ih.2]
          exact ⟨by simp, rfl⟩
      rcases hd with hd | hd | hd
      · exact key _ hd (by decide) (opens_for (.inl hd))
      · exact key _ hd (by decide) (opens_for (.inr hd))
      · exact key _ hd (by decide) (opens_rep hd)

/-! ### Against the text -/

mutual
theorem pushes_gexpr {valid : Bytes → Bool} : ∀ {n : Nat} {ts : List Token} {e : Expr}, GExpr valid n ts e → 2 * e.pushes ≤ tokensLength ts + 1
  | _, _, _, .unary _ _ _ h => pushes_gunary h
  | _, _, _, .binary _ _ _ lx _ _ _ _ _ _ h1 h2 => by
    have a := pushes_gexpr h1
    have b := pushes_gexpr h2
    simp only [Expr.pushes, Exprs.pushes, tokensLength_append, tokensLength_cons, tokenLength]
    omega
theorem pushes_gunary {valid : Bytes → Bool} : ∀ {ts : List Token} {e : Expr}, GUnary valid ts e → 2 * e.pushes ≤ tokensLength ts + 1
  | _, _, .primary _ _ h => pushes_gprimary h
  | _, _, .neg _ _ h => by
    have a := pushes_gunary h
    simp only [Expr.pushes, Exprs.pushes, tokensLength_cons, tokenLength]
    omega
  | _, _, .not _ _ h => by
    have a := pushes_gunary h
    simp only [Expr.pushes, Exprs.pushes, tokensLength_cons, tokenLength]
    omega
theorem pushes_gprimary {valid : Bytes → Bool} : ∀ {ts : List Token} {e : Expr}, GPrimary valid ts e → 2 * e.pushes ≤ tokensLength ts + 1
  | _, _, .atom _ _ h => pushes_gatom h
  | _, _, .call _ _ _ _ h1 h2 => by
    have a := pushes_gprimary h1
    have b := pushes_glist h2
    simp only [Expr.pushes, Exprs.pushes, tokensLength_append, tokensLength_cons, tokensLength_nil, tokenLength] at a ⊢
    omega
  | _, _, .index _ _ _ _ h1 h2 => by
    have a := pushes_gprimary h1
    have b := pushes_gexpr h2
    simp only [Expr.pushes, Exprs.pushes, tokensLength_append, tokensLength_cons, tokensLength_nil, tokenLength] at a ⊢
    omega
  | _, _, .dot _ _ _ h1 => by
    have a := pushes_gprimary h1
    simp only [Expr.pushes, Exprs.pushes, tokensLength_append, tokensLength_cons, tokensLength_nil, tokenLength] at a ⊢
    omega
theorem pushes_gatom {valid : Bytes → Bool} : ∀ {ts : List Token} {e : Expr}, GAtom valid ts e → 2 * e.pushes ≤ tokensLength ts + 1
  | _, _, .tru => by simp [Expr.pushes, tokensLength, tokenLength]
  | _, _, .fls => by simp [Expr.pushes, tokensLength, tokenLength]
  | _, _, .nul => by simp [Expr.pushes, tokensLength, tokenLength]
  | _, _, .name _ _ _ _ => by simp [Expr.pushes, tokensLength, tokenLength]
  | _, _, .int _ => by simp [Expr.pushes, tokensLength, tokenLength]
  | _, _, .real _ => by simp [Expr.pushes, tokensLength, tokenLength]
  | _, _, .str _ => by simp [Expr.pushes, tokensLength, tokenLength]
  | _, _, .re _ _ => by simp [Expr.pushes, tokensLength, tokenLength]
  | _, _, .current => by simp [Expr.pushes, tokensLength, tokenLength]
  | _, _, .root => by simp [Expr.pushes, tokensLength, tokenLength]
  | _, _, .paren _ _ h => by
    have a := pushes_gexpr h
    simp only [tokensLength_append, tokensLength_cons, tokensLength_nil, tokenLength]
    omega
  | _, _, .array _ _ h => by
    have a := pushes_glist h
    simp only [Expr.pushes, tokensLength_append, tokensLength_cons, tokensLength_nil, tokenLength]
    omega
theorem pushes_glist {valid : Bytes → Bool} : ∀ {ts : List Token} {es : List Expr}, GList valid ts es → 2 * Exprs.pushes es ≤ tokensLength ts + 1
  | _, _, .nil => by simp [Exprs.pushes]
  | _, _, .some _ _ h => pushes_glist1 h
theorem pushes_glist1 {valid : Bytes → Bool} : ∀ {ts : List Token} {es : List Expr}, GList1 valid ts es → 2 * Exprs.pushes es ≤ tokensLength ts + 1
  | _, _, .one _ _ h => by
    have a := pushes_gexpr h
    simp only [Exprs.pushes]
    omega
  | _, _, .cons _ _ _ _ h1 h2 => by
    have a := pushes_gexpr h1
    have b := pushes_glist1 h2
    simp only [Exprs.pushes, tokensLength_append, tokensLength_cons, tokenLength]
    omega
end

theorem pushes_gparen {valid : Bytes → Bool} {ts : List Token} {e : Expr} (h : GParen valid ts e) : 2 * e.pushes ≤ tokensLength ts := by
  obtain ⟨us, h, rfl⟩ := h
  have := pushes_gexpr h
  simp only [tokensLength_append, tokensLength_cons, tokensLength_nil, tokenLength]
  omega

theorem pushes_gmember {valid : Bytes → Bool} {ts : List Token} {m : Option Val} (h : GMember valid ts m) :
    1 ≤ tokensLength ts ∧ ∀ v, m = some v → 2 * v.pushes ≤ tokensLength ts + 1 := by
  cases h with
  | wild => simp [tokensLength_cons, tokensLength_nil, tl_p]
  | name s => simp [tokensLength_cons, tokensLength_nil, tl_name, Val.pushes]
  | int n => simp [tokensLength_cons, tokensLength_nil, tl_int, Val.pushes]
  | expr ts e h =>
    have := pushes_gparen h
    simp only [tokensLength_cons, tl_p, tl_nest]
    refine ⟨by omega, ?_⟩
    rintro v ⟨⟩
    simp only [Val.pushes]
    omega

theorem pushes_gelem {valid : Bytes → Bool} {ts : List Token} {v : Val} (h : GElem valid ts v) : 2 * v.pushes ≤ tokensLength ts + 1 := by
  cases h with
  | int n => simp [tokensLength_cons, tokensLength_nil, tl_int, Val.pushes]
  | str n => simp [tokensLength_cons, tokensLength_nil, tl_str, Val.pushes]
  | name n => simp [tokensLength_cons, tokensLength_nil, tl_name, Val.pushes]
  | slice ts s h =>
    cases h <;> (simp only [tokensLength_append, tokensLength_cons, tl_p, tl_nest, Val.pushes]; omega)

theorem pushes_gelems {valid : Bytes → Bool} {ts : List Token} {vs : List Val} (h : GElems valid ts vs) :
    2 * Vals.pushes vs ≤ tokensLength ts + 1 := by
  induction h with
  | one ts v h => have := pushes_gelem h; simp only [Vals.pushes]; omega
  | cons ts v us vs h _ ih =>
    have := pushes_gelem h
    simp only [Vals.pushes, tokensLength_append, tokensLength_cons, tl_p, tl_nest]
    omega

theorem pushes_gsub {valid : Bytes → Bool} {ts : List Token} {k : StepKind} (h : GSub valid ts k) (deep : Bool) :
    2 * max 1 (Vals.pushes (k.step true deep).args) ≤ tokensLength ts + 2 := by
  cases h with
  | wild => cases deep <;> decide
  | filter ts e h =>
    have := pushes_gparen h
    cases deep <;> simp [StepKind.step, Vals.pushes, Val.pushes, tokensLength_cons, tl_filter] <;> omega
  | expr ts e h =>
    have := pushes_gparen h
    cases deep <;> simp [StepKind.step, Vals.pushes, Val.pushes, tokensLength_cons, tl_p, tl_nest] <;> omega
  | one ts v h =>
    have := pushes_gelem h
    cases deep <;> simp [StepKind.step, Vals.pushes] <;> omega
  | union ts vs h _ =>
    have := pushes_gelems h
    cases deep <;> simp [StepKind.step] <;> omega

theorem pushes_gstep {valid : Bytes → Bool} {ts : List Token} {s : Step} (h : GStep valid ts s) :
    2 * max 1 (Vals.pushes s.args) ≤ tokensLength ts := by
  cases h with
  | member ts m h =>
    obtain ⟨h1, h2⟩ := pushes_gmember h
    rw [tokensLength_cons]
    cases m with
    | none => simp [memberKind, StepKind.step, Vals.pushes, tl_p]; omega
    | some v =>
      have := h2 v rfl
      simp [memberKind, StepKind.step, Vals.pushes, tl_p]; omega
  | nestMember ts m h =>
    obtain ⟨h1, h2⟩ := pushes_gmember h
    rw [tokensLength_cons]
    cases m with
    | none => simp [memberKind, StepKind.step, Vals.pushes, tl_nest]
    | some v =>
      have := h2 v rfl
      simp [memberKind, StepKind.step, Vals.pushes, tl_nest]; omega
  | sub ts k h =>
    have := pushes_gsub h false
    simp only [tokensLength_append, tokensLength_cons, tokensLength_nil, tl_p]
    omega
  | nestSub ts k h =>
    have := pushes_gsub h true
    simp only [tokensLength_append, tokensLength_cons, tokensLength_nil, tl_p, tl_nest]
    omega

theorem pushes_gsteps {valid : Bytes → Bool} {ts : List Token} {p : Path} (h : GSteps valid ts p) :
    ∀ s ∈ p, 2 * max 1 (Vals.pushes s.args) ≤ tokensLength ts := by
  induction h with
  | nil => simp
  | cons ts s us p h _ ih =>
    intro x hx
    rw [tokensLength_append]
    rcases List.mem_cons.1 hx with rfl | hx
    · have := pushes_gstep h; omega
    · have := ih x hx; omega

theorem parsePath_pushes {env : Env} {text : Bytes} {p : Path} (h : parsePath env text = .ok p) :
    ∀ s ∈ p, max 1 (Vals.pushes s.args) ≤ (text.length - 1) / 2 := by
  obtain ⟨ts, h1, us, h2, rfl⟩ := parsePath_iff.1 h
  have h3 := written_length h1
  intro s hs
  have h4 := pushes_gsteps h2 s hs
  rw [tokensLength_cons] at h3
  simp only [tl_p] at h3
  omega

mutual
theorem pushes_le_size : ∀ e : Expr, e.pushes ≤ e.size
  | .inner op kids => by have := pushes_le_sizes kids; simp only [Expr.pushes, Expr.size]; omega
  | .int _ | .float _ | .str _ | .name _ | .re _ | .bool _ | .null | .current | .root => by simp [Expr.pushes, Expr.size]
theorem pushes_le_sizes : ∀ es : List Expr, Exprs.pushes es ≤ Exprs.size es
  | [] => by simp [Exprs.pushes]
  | e :: r => by have := pushes_le_size e; have := pushes_le_sizes r; simp only [Exprs.pushes, Exprs.size]; omega
end

theorem vpushes_le_size : ∀ vs : List Val, Vals.pushes vs ≤ Vals.size vs
  | [] => by simp [Vals.pushes]
  | v :: r => by
    have h1 : v.pushes ≤ v.size := by cases v <;> simp only [Val.pushes, Val.size] <;> first | exact pushes_le_size _ | omega
    have := vpushes_le_size r
    simp only [Vals.pushes, Vals.size]
    omega

theorem path_pushes : ∀ (p : Path), ∀ s ∈ p, max 1 (Vals.pushes s.args) ≤ Path.size p
  | [], s, h => by cases h
  | s :: r, x, h => by
    have h1 := vpushes_le_size s.args
    have h2 : Vals.size s.args + 1 ≤ s.size := by unfold Step.size; omega
    simp only [Path.size]
    rcases List.mem_cons.1 h with rfl | h
    · omega
    · have := path_pushes r x h; omega

/-- All of it. -/
theorem Compile_heights {env : Env} {text : Bytes} {p : JSONPath} (h : Compile env text = .ok p) (hl : p.prog.orders.length < 2 ^ 22)
    {oracle : Oracle} {root : V} {s : MState} (hd : During env oracle p root s) :
    (s.stack.length : Int) = totalOf rise (p.prog.orders.take s.pc) ∧ (s.values.length : Int) = totalOf opens (p.prog.orders.take s.pc) ∧
    s.values.length ≤ 1 ∧ s.stack.length ≤ (text.length - 1) / 2 ∧ (p.prog.orders[s.pc]? = none → s.stack = [] ∧ s.values = []) := by
  obtain ⟨path, hp, hw, hc, _, h1, _⟩ := Compile_ok h
  have hb := compile_blocks hw hc hl (path_pushes path)
  obtain ⟨h2, h3⟩ := during_heights (by omega) hl hb hd
  obtain ⟨g1, g2, g3, _⟩ := good_of_blocks (compile_blocks hw hc hl (parsePath_pushes hp)) [] rfl rfl rfl s.pc (by omega)
  simp only [List.nil_append] at g1 g2 g3
  refine ⟨h2, h3, by omega, by omega, fun hn => ?_⟩
  obtain ⟨g4, g5⟩ := g3 (List.getElem?_eq_none_iff.1 hn)
  exact ⟨List.length_eq_zero_iff.1 (by omega), List.length_eq_zero_iff.1 (by omega)⟩

end JP
