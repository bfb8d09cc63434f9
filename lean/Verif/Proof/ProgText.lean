import Verif.Model.Text
import Verif.Proof.Consts
import Verif.Proof.Quote
import Verif.Proof.JsText
import Verif.Proof.Api
import Verif.Spec.Print
import Verif.Spec.Text
/-!
The text of a program: every program of a path has one, and it determines the program.
-/
namespace JP
open Spec

/-! ### The orders of compiled programs -/

/-- The operator of the orders that refer to a constant. -/
def PVal.op : PVal → Op
  | .int _ => .int
  | .str _ => .string
  | .name _ => .id
  | .slice _ => .bounds
  | .float _ => .real
  | .re _ => .re

/-- What the coder assembles. -/
inductive OrderOk (vs : List PVal) : Order → Prop
  | plain (op n) : op.isLeaf = false → OrderOk vs (mkSmall op n)
  | leaf (op) : op.isLeaf = true → op.hasVal = false → OrderOk vs (mkSmall op 0)
  | small (op n) : op.isLeaf = true → op.hasVal = true → OrderOk vs (mkSmall op n)
  | const (i : UInt32) (v) : i.toNat < 2 ^ 22 → vs[i.toNat]? = some v → OrderOk vs (mkOrder v.op i)

theorem OrderOk.mono {vs ws : List PVal} {o : Order} (h : OrderOk vs o) (hp : vs <+: ws) : OrderOk ws o := by
  cases h with
  | plain op n h => exact .plain op n h
  | leaf op h h' => exact .leaf op h h'
  | small op n h h' => exact .small op n h h'
  | const i v hi hv =>
    obtain ⟨t, rfl⟩ := hp
    exact .const i v hi (by rw [List.getElem?_append_left (List.getElem?_eq_some_iff.1 hv).1, hv])

def OrdersOk (p : Program) : Prop := p.Small ∧ ∀ o ∈ p.orders, OrderOk p.vals o

def Keeps (p : Program) (r : Res CErr Program) : Prop := OrdersOk p → ∀ p', r = .ok p' → p.vals <+: p'.vals ∧ OrdersOk p'

theorem Keeps.bind {p : Program} {r : Res CErr Program} {f : Program → Res CErr Program} (h : Keeps p r)
    (h' : ∀ q, r = .ok q → Keeps q (f q)) : Keeps p (r >>= f) := by
  intro hp p' hr
  obtain ⟨q, hq, hf⟩ := bind_eq_ok hr
  obtain ⟨h1, h2⟩ := h hp q hq
  obtain ⟨h3, h4⟩ := h' q hq h2 p' hf
  exact ⟨h1.trans h3, h4⟩

theorem keeps_asm {o : Order} (p : Program) (h : OrderOk p.vals o) : Keeps p (.ok (asm o p)) := by
  rintro ⟨h1, h2⟩ p' hp
  cases hp
  refine ⟨List.prefix_rfl, h1, fun x hx => ?_⟩
  rcases List.mem_append.1 hx with hx | hx
  · exact h2 x hx
  · rw [List.mem_singleton.1 hx]; exact h

theorem keeps_codeOp (v : PVal) (p : Program) : Keeps p (codeOp v.op (some v) p) := by
  rintro ⟨h1, h2⟩ p' hp
  obtain ⟨o, e1, e2, e3, e4⟩ := codeOp_ok hp h1
  refine ⟨e2, e3, fun x hx => ?_⟩
  rw [e1] at hx
  rcases List.mem_append.1 hx with hx | hx
  · exact (h2 x hx).mono e2
  · rw [List.mem_singleton.1 hx]
    rcases e4 with ⟨n, rfl, _, rfl⟩ | ⟨i, w, rfl, hi, hw, hv⟩
    · exact .small _ _ rfl rfl
    · have : v.op = w.op := by
        rcases hv with rfl | hv
        · rfl
        · cases v <;> cases w <;> first | rfl | simp [PVal.keyEq] at hv
      rw [this]
      exact .const i w hi hw

mutual
theorem keeps_codeExpr : ∀ (e : Expr) (_ : e.WF) (p : Program), Keeps p (codeExpr e p)
  | .int n, _, p => by
    unfold codeExpr
    split
    · exact keeps_asm p (.small _ _ rfl rfl)
    · exact keeps_codeOp (.int n) p
  | .float f, _, p => by unfold codeExpr; exact keeps_codeOp (.float f) p
  | .str f, _, p => by unfold codeExpr; exact keeps_codeOp (.str f) p
  | .name f, _, p => by unfold codeExpr; exact keeps_codeOp (.name f) p
  | .re f, _, p => by unfold codeExpr; exact keeps_codeOp (.re f) p
  | .bool b, _, p => by unfold codeExpr; exact keeps_asm p (.small _ _ rfl rfl)
  | .null, _, p => by unfold codeExpr; exact keeps_asm p (.leaf _ rfl rfl)
  | .current, _, p => by unfold codeExpr; exact keeps_asm p (.leaf _ rfl rfl)
  | .root, _, p => by unfold codeExpr; exact keeps_asm p (.leaf _ rfl rfl)
  | .inner op kids, h, p => by
    unfold codeExpr
    have hl := notLeaf_of_wf h
    rw [if_neg (by rw [hl]; decide)]
    exact (keeps_codeKids kids (kids_of_wf h) p).bind fun q _ => keeps_asm q (.plain _ _ hl)
theorem keeps_codeKids : ∀ (es : List Expr) (_ : Exprs.WF es) (p : Program), Keeps p (codeKids es p)
  | [], _, p => by unfold codeKids; rintro hp p' h; cases h; exact ⟨List.prefix_rfl, hp⟩
  | e :: r, h, p => by
    unfold codeKids
    have : e.WF ∧ Exprs.WF r := by cases h with | cons _ _ h1 h2 => exact ⟨h1, h2⟩
    exact (keeps_codeExpr e this.1 p).bind fun q _ => keeps_codeKids r this.2 q
end

theorem keeps_codeVal (v : Val) (h : v.WF) (p : Program) : Keeps p (codeVal (valOp v) v p) := by
  cases v with
  | expr e => exact keeps_codeExpr e h p
  | int n => exact keeps_codeOp (.int n) p
  | str n => exact keeps_codeOp (.str n) p
  | name n => exact keeps_codeOp (.name n) p
  | slice n => exact keeps_codeOp (.slice n) p

theorem keeps_codeArgs : ∀ (vs : List Val) (_ : ∀ v ∈ vs, v.WF) (p : Program), Keeps p (codeArgs vs p)
  | [], _, p => by unfold codeArgs; rintro hp p' h; cases h; exact ⟨List.prefix_rfl, hp⟩
  | v :: r, h, p => by
    unfold codeArgs
    exact (keeps_codeVal v (h v (by simp)) p).bind fun q _ => keeps_codeArgs r (fun v hm => h v (by simp [hm])) q

theorem keeps_codeStep (s : Step) (h : s.WF) (p : Program) : Keeps p (codeStep s p) := by
  unfold codeStep
  refine (keeps_codeArgs s.args h.1 p).bind fun q _ => keeps_asm q ?_
  have := h.2
  cases hop : s.op <;> rw [hop] at this <;> first
    | exact .plain _ _ rfl
    | exact this.elim
    | (rw [this]; exact .leaf _ rfl rfl)

theorem keeps_codeLoop (s : Step) (h : s.WF) (op : Op) (ho : op.isLeaf = false) (p : Program) : Keeps p (codeLoop s op p) := by
  intro hp p' hr
  unfold codeLoop at hr
  simp only at hr
  obtain ⟨q, hq, hr⟩ := bind_eq_ok hr
  cases hr
  obtain ⟨h1, h2⟩ := keeps_asm p (.plain op 0 ho) hp _ rfl
  obtain ⟨h3, h4⟩ := keeps_codeStep s h _ h2 q hq
  obtain ⟨h5, h6, h7⟩ := keeps_asm q (.plain .rep (Int64.ofNat (asm (mkSmall op 0) p).orders.length) rfl) h4 _ rfl
  refine ⟨(h1.trans h3).trans h5, h6, fun x hx => ?_⟩
  rcases List.mem_or_eq_of_mem_set hx with hx | rfl
  · exact h7 x hx
  · exact .plain _ _ ho

theorem keeps_codePathStep (s : Step) (h : s.WF) (p : Program) : Keeps p (codePathStep s p) := by
  have hno : (s.op.isLeaf && s.op.hasVal) = false := by
    have := h.2
    cases hop : s.op <;> rw [hop] at this <;> first | rfl | exact this.elim
  unfold codePathStep
  rw [if_neg (by rw [hno]; decide)]
  cases s.op <;> first | exact keeps_codeLoop s h _ rfl p | exact keeps_codeStep s h p

theorem keeps_codePath : ∀ (path : Path) (_ : path.WF) (p : Program), Keeps p (codePath path p)
  | [], _, p => by unfold codePath; rintro hp p' h; cases h; exact ⟨List.prefix_rfl, hp⟩
  | s :: r, h, p => by
    unfold codePath
    exact (keeps_codePathStep s (h s (by simp)) p).bind fun q _ => keeps_codePath r (fun v hm => h v (by simp [hm])) q

theorem compile_orders {path : Path} (h : path.WF) {p : Program} (hc : compile path = .ok p) : OrdersOk p :=
  (keeps_codePath path h ⟨[], []⟩ ⟨by simp [Program.Small], by simp⟩ p hc).2

/-! ### The text of an order -/

theorem index_eq (o : Order) : o.index = if o.isSmallInt then none else some (o >>> 9) := rfl

/-- What is after the name of the operator. -/
inductive Operand
  | none
  | packed (n : Int)
  | slot (i : Nat)
  | count (n : Int)

def Operand.text : Operand → Bytes
  | none => []
  | packed n => c! '(' :: (intToBytes n ++ [c! ')'])
  | slot i => c! '[' :: (natToBytes i ++ [c! ']'])
  | count n => c! '.' :: intToBytes n

/-- An order, read as operator and operand. -/
inductive OrderReads (vs : List PVal) : Order → Op → Operand → Prop
  | zero (op) : op.isLeaf = false → OrderReads vs (mkSmall op 0) op .none
  | count (op n m) : op.isLeaf = false → m = Int.bmod n.toInt (2 ^ 23) → m ≠ 0 → OrderReads vs (mkSmall op n) op (.count m)
  | leaf (op) : op.isLeaf = true → op.hasVal = false → OrderReads vs (mkSmall op 0) op .none
  | packed (op n m) : op.isLeaf = true → op.hasVal = true → m = Int.bmod n.toInt (2 ^ 23) → OrderReads vs (mkSmall op n) op (.packed m)
  | slot (i : UInt32) (v) : i.toNat < 2 ^ 22 → vs[i.toNat]? = some v → OrderReads vs (mkOrder v.op i) v.op (.slot i.toNat)

theorem mkSmall_congr (op : Op) {n m : Int64} (h : Int.bmod n.toInt (2 ^ 23) = Int.bmod m.toInt (2 ^ 23)) : mkSmall op n = mkSmall op m := by
  apply UInt32.toNat_inj.1
  rw [mkSmall_toNat, mkSmall_toNat]
  have : n.toInt % 2 ^ 23 = m.toInt % 2 ^ 23 := by
    have h1 := Int.bmod_emod (m := 2 ^ 23) (x := n.toInt)
    have h2 := Int.bmod_emod (m := 2 ^ 23) (x := m.toInt)
    rw [h] at h1
    exact h1.symm.trans h2
  rw [this]

theorem const_text (v : PVal) {i : UInt32} (hi : i.toNat < 2 ^ 22) :
    (mkOrder v.op i).text = some (trimOp v.op ++ (Operand.slot i.toNat).text) := by
  unfold Order.text
  rw [mkOrder_opNum _ _ (by omega), Op.ofNat?_toNat]
  have h : v.op.isLeaf = true ∧ v.op.hasVal = true := by cases v <;> exact ⟨rfl, rfl⟩
  simp only [h.1, h.2, mkOrder_isSmallInt v.op i (by omega), mkOrder_index v.op i (by omega)]
  simp [Operand.text]

theorem reads_order {vs : List PVal} {o : Order} (h : OrderOk vs o) :
    ∃ op x, OrderReads vs o op x ∧ o.text = some (trimOp op ++ x.text) := by
  cases h with
  | plain op n h =>
    have ht : (mkSmall op n).text = some (trimOp op ++ if (mkSmall op n).smallInt = 0 then [] else c! '.' :: intToBytes (mkSmall op n).smallInt.toInt) := by
      unfold Order.text
      rw [mkSmall_opNum, Op.ofNat?_toNat]
      simp only [h, mkSmall_isSmallInt]
      by_cases h0 : (mkSmall op n).smallInt = 0 <;> simp [h0]
    have hs := mkSmall_smallInt_toInt op n
    by_cases h0 : Int.bmod n.toInt (2 ^ 23) = 0
    · refine ⟨op, .none, ?_, ?_⟩
      · rw [mkSmall_congr op (m := 0) h0]; exact .zero op h
      · rw [ht, if_pos (Int64.toInt_inj.1 (hs.trans h0 : _ = (0 : Int64).toInt))]; rfl
    · refine ⟨op, .count _, .count op n _ h rfl h0, ?_⟩
      rw [ht, if_neg (fun e => h0 (by rw [← hs, e]; rfl)), hs]
      rfl
  | leaf op h h' =>
    refine ⟨op, .none, .leaf op h h', ?_⟩
    unfold Order.text
    rw [mkSmall_opNum, Op.ofNat?_toNat]
    simp [h, h', Operand.text]
  | small op n h h' =>
    refine ⟨op, .packed _, .packed op n _ h h' rfl, ?_⟩
    unfold Order.text
    rw [mkSmall_opNum, Op.ofNat?_toNat]
    simp only [h, h', mkSmall_isSmallInt, mkSmall_smallInt_toInt]
    simp [Operand.text]
  | const i v hi hv =>
    exact ⟨v.op, .slot _, .slot i v hi hv, const_text v hi⟩

/-! ### Texts are read in one way -/

theorem split_at {c : UInt8} : ∀ {x y r s : Bytes}, c ∉ x → c ∉ y → x ++ c :: r = y ++ c :: s → x = y ∧ r = s
  | [], [], r, s, _, _, h => ⟨rfl, (List.cons.inj h).2⟩
  | [], b :: y, r, s, _, hy, h => by
    have := (List.cons.inj h).1
    subst this
    exact absurd (by simp) hy
  | a :: x, [], r, s, hx, _, h => by
    have := (List.cons.inj h).1
    subst this
    exact absurd (by simp) hx
  | a :: x, b :: y, r, s, hx, hy, h => by
    obtain ⟨h1, h2⟩ := List.cons.inj h
    obtain ⟨rfl, rfl⟩ := split_at (fun m => hx (by simp [m])) (fun m => hy (by simp [m])) h2
    exact ⟨by rw [h1], rfl⟩

theorem natToBytes_inj {m n : Nat} (h : natToBytes m = natToBytes n) : m = n := by
  rw [← (natToBytes_spec m).2, h, (natToBytes_spec n).2]

theorem natToBytes_chars {n : Nat} : natToBytes n ≠ [] ∧ ∀ c ∈ natToBytes n, 48 ≤ c.toNat ∧ c.toNat ≤ 57 :=
  ⟨(natToBytes_spec n).1.1, fun c hc => ⟨UInt8.le_iff_toNat_le.1 ((natToBytes_spec n).1.2 c hc).1, UInt8.le_iff_toNat_le.1 ((natToBytes_spec n).1.2 c hc).2⟩⟩

theorem intToBytes_chars {n : Int} : intToBytes n ≠ [] ∧ ∀ c ∈ intToBytes n, (48 ≤ c.toNat ∧ c.toNat ≤ 57) ∨ c.toNat = 45 := by
  unfold intToBytes
  split
  · refine ⟨by simp, fun c hc => ?_⟩
    rcases List.mem_cons.1 hc with rfl | hc
    · exact Or.inr rfl
    · exact Or.inl (natToBytes_chars.2 c hc)
  · exact ⟨natToBytes_chars.1, fun c hc => Or.inl (natToBytes_chars.2 c hc)⟩

theorem intToBytes_inj {m n : Int} (h : intToBytes m = intToBytes n) : m = n := by
  have first : ∀ {k : Nat} {t : Bytes}, natToBytes k = c! '-' :: t → False := fun {k t} hk => by
    have := natToBytes_chars.2 (c! '-') (by rw [hk]; simp)
    revert this
    decide
  unfold intToBytes at h
  split at h <;> split at h
  · have := natToBytes_inj (List.cons.inj h).2
    omega
  · exact (first h.symm).elim
  · exact (first h).elim
  · have := natToBytes_inj h
    omega

theorem notMem_intToBytes {c : UInt8} (h : c.toNat ≠ 45) (h' : ¬ (48 ≤ c.toNat ∧ c.toNat ≤ 57)) (n : Int) : c ∉ intToBytes n := fun hc => by
  have := intToBytes_chars.2 c hc
  omega

/-- A letter of the names of operators. -/
def alpha (c : UInt8) : Bool := (65 ≤ c && c ≤ 90) || (97 ≤ c && c ≤ 122)

theorem trimOp_alpha (op : Op) : trimOp op ≠ [] ∧ ∀ c ∈ trimOp op, alpha c = true := by
  cases op <;> decide +kernel

theorem mem_all (op : Op) : op ∈ Op.all := by cases op <;> decide

theorem trimOp_inj {a b : Op} (h : trimOp a = trimOp b) : a = b := by
  have : ∀ a ∈ Op.all, ∀ b ∈ Op.all, trimOp a = trimOp b → a = b := by decide +kernel
  exact this a (mem_all a) b (mem_all b) h

theorem Operand.text_alpha (x : Operand) : ∀ c t, x.text = c :: t → alpha c = false := by
  intro c t h
  cases x with
  | none => cases h
  | packed | slot | count => rw [← (List.cons.inj h).1]; decide

theorem alpha_split : ∀ {a b x y : Bytes}, (∀ c ∈ a, alpha c = true) → (∀ c ∈ b, alpha c = true) →
    (∀ c t, x = c :: t → alpha c = false) → (∀ c t, y = c :: t → alpha c = false) → a ++ x = b ++ y → a = b ∧ x = y
  | [], [], x, y, _, _, _, _, h => ⟨rfl, h⟩
  | [], c :: b, x, y, _, hb, hx, _, h => by
    have := hb c (by simp)
    rw [hx c _ h] at this
    cases this
  | c :: a, [], x, y, ha, _, _, hy, h => by
    have := ha c (by simp)
    rw [hy c _ h.symm] at this
    cases this
  | c :: a, d :: b, x, y, ha, hb, hx, hy, h => by
    obtain ⟨h1, h2⟩ := List.cons.inj h
    obtain ⟨rfl, rfl⟩ := alpha_split (fun c m => ha c (by simp [m])) (fun c m => hb c (by simp [m])) hx hy h2
    exact ⟨by rw [h1], rfl⟩

theorem Operand.text_inj {x y : Operand} (h : x.text = y.text) : x = y := by
  cases x <;> cases y <;> simp only [Operand.text] at h <;> try first | rfl | (simp at h; done)
  · have := intToBytes_inj (List.append_cancel_right (List.cons.inj h).2)
    rw [this]
  · have := natToBytes_inj (List.append_cancel_right (List.cons.inj h).2)
    rw [this]
  · have := intToBytes_inj (List.cons.inj h).2
    rw [this]

theorem order_text_inj {vs ws : List PVal} {o o' : Order} {op op' : Op} {x x' : Operand} (h1 : OrderReads vs o op x) (h2 : OrderReads ws o' op' x')
    (h : trimOp op ++ x.text = trimOp op' ++ x'.text) : op = op' ∧ x = x' ∧ o = o' := by
  obtain ⟨e1, e2⟩ := alpha_split (trimOp_alpha op).2 (trimOp_alpha op').2 x.text_alpha x'.text_alpha h
  have e1 := trimOp_inj e1
  have e2 := Operand.text_inj e2
  clear h
  subst e1
  subst e2
  refine ⟨rfl, rfl, ?_⟩
  cases h1 with
  | zero _ h =>
    cases h2 with
    | zero => rfl
    | leaf _ h' => rw [h] at h'
  | count _ n m h e =>
    cases h2 with
    | count _ n' _ h' e' => exact mkSmall_congr _ (e.symm.trans e')
  | leaf _ h =>
    cases h2 with
    | zero _ h' => rw [h] at h'
    | leaf => rfl
  | packed _ n m h _ e =>
    cases h2 with
    | packed _ n' _ h' _ e' => exact mkSmall_congr _ (e.symm.trans e')
  | slot i v =>
    generalize hop : v.op = op at h2
    generalize hi : Operand.slot i.toNat = x at h2
    cases h2 with
    | slot i' v' => 
      have := UInt32.toNat_inj.1 (Operand.slot.inj hi)
      rw [this]
    | _ => cases hi

/-! ### The texts of constants -/

/-- The constants of paths whose slices have literals for bounds. -/
def PVal.Plain : PVal → Prop
  | .int _ | .str _ | .re _ => True
  | .name s => PathIdent s
  | .float f => f.Finite
  | .slice s => s.Literal

/-- The text of a value or an order: a literal in quotes, or a word without spaces. -/
inductive Piece : Bytes → Prop
  | quoted (t v) : GoLiteral (c! '"' :: t) v → Piece (c! '"' :: t)
  | word (c t) : c ≠ c! '"' → c! ' ' ∉ c :: t → Piece (c :: t)

theorem Piece.prefix {a b x y : Bytes} (ha : Piece a) (hb : Piece b) (hx : x = [] ∨ ∃ t, x = c! ' ' :: t) (hy : y = [] ∨ ∃ t, y = c! ' ' :: t)
    (h : a ++ x = b ++ y) : a = b ∧ x = y := by
  cases ha with
  | quoted t v hl =>
    cases hb with
    | quoted t' v' hl' =>
      obtain ⟨h1, _, h2⟩ := hl.prefix hl' h
      exact ⟨h1, h2⟩
    | word c t' hc => exact absurd (List.cons.inj h).1.symm hc
  | word c t hc hs =>
    cases hb with
    | quoted t' v' hl' => exact absurd (List.cons.inj h).1 hc
    | word c' t' hc' hs' =>
      rcases hx with rfl | ⟨x, rfl⟩ <;> rcases hy with rfl | ⟨y, rfl⟩
      · simpa using h
      · refine absurd ?_ hs
        rw [List.append_nil] at h
        rw [h]
        simp
      · refine absurd ?_ hs'
        rw [List.append_nil] at h
        rw [← h]
        simp
      · obtain ⟨h1, h2⟩ := split_at hs hs' h
        exact ⟨h1, by rw [h2]⟩

theorem spaced_cons (t : Bytes) (ts : List Bytes) : spaced (t :: ts) = t ++ (match ts with | [] => [] | _ => c! ' ' :: spaced ts) := by
  cases ts with
  | nil => simp [spaced]
  | cons => simp [spaced]

theorem spaced_inj : ∀ {ts us : List Bytes}, (∀ t ∈ ts, Piece t) → (∀ t ∈ us, Piece t) → spaced ts = spaced us → ts = us
  | [], [], _, _, _ => rfl
  | [], u :: us, _, hu, h => by
    exfalso
    rw [spaced_cons] at h
    have := hu u (by simp)
    cases this <;> cases h
  | t :: ts, [], ht, _, h => by
    exfalso
    rw [spaced_cons] at h
    have := ht t (by simp)
    cases this <;> cases h
  | t :: ts, u :: us, ht, hu, h => by
    rw [spaced_cons, spaced_cons] at h
    have side : ∀ l : List Bytes, (match l with | [] => [] | _ => c! ' ' :: spaced l) = [] ∨ ∃ t, (match l with | [] => [] | _ => c! ' ' :: spaced l) = c! ' ' :: t := by
      intro l
      cases l with
      | nil => exact Or.inl rfl
      | cons => exact Or.inr ⟨_, rfl⟩
    obtain ⟨e1, e2⟩ := (ht t (by simp)).prefix (hu u (by simp)) (side ts) (side us) h
    have hts : ts = us := by
      cases ts with
      | nil => cases us with
        | nil => rfl
        | cons => cases e2
      | cons => cases us with
        | nil => cases e2
        | cons => exact spaced_inj (fun t m => ht t (List.mem_cons_of_mem _ m)) (fun t m => hu t (List.mem_cons_of_mem _ m)) (List.cons.inj e2).2
    rw [e1, hts]

theorem piece_word {t : Bytes} (h : t ≠ []) (h' : ∀ c ∈ t, c ≠ c! '"' ∧ c ≠ c! ' ') : Piece t := by
  cases t with
  | nil => exact absurd rfl h
  | cons c t => exact .word c t (h' c (by simp)).1 fun m => (h' _ m).2 rfl

theorem piece_quote (env : Env) (s : Bytes) : Piece (goQuote env s) := .quoted _ s (goQuote_spec env s)

theorem fmtFloat_chars {x : F64} (hf : x.Finite) : ∀ c ∈ fmtFloat x, c ≠ c! '"' ∧ c ≠ c! ' ' := by
  have nat : ∀ {n : Nat}, ∀ c ∈ natToBytes n, c ≠ c! '"' ∧ c ≠ c! ' ' := fun {n} c hc => by
    have := natToBytes_chars.2 c hc
    constructor <;> (rintro rfl; revert this; decide)
  have mag : ∀ c ∈ formatMag x, c ≠ c! '"' ∧ c ≠ c! ' ' := by
    intro c hc
    unfold formatMag at hc
    split at hc
    · rw [List.mem_singleton.1 hc]; decide
    simp only at hc
    split at hc
    · unfold formatE at hc
      simp only [List.mem_append, List.mem_cons] at hc
      rcases hc with hc | rfl | rfl | hc
      · split at hc
        · next d c' r hd =>
          simp only [List.mem_cons] at hc
          rcases hc with rfl | rfl | hc
          · exact nat (n := (shortest x).1) _ (by rw [hd]; simp)
          · decide
          · exact nat (n := (shortest x).1) _ (by rw [hd]; simp [hc])
        · exact nat _ hc
      · decide
      · split <;> decide
      · split at hc
        · rcases List.mem_cons.1 hc with rfl | hc
          · decide
          · exact nat _ hc
        · exact nat _ hc
    · unfold formatF at hc
      split at hc
      · simp only [List.mem_append, List.mem_cons, List.mem_replicate] at hc
        rcases hc with rfl | rfl | ⟨_, rfl⟩ | hc
        · decide
        · decide
        · decide
        · exact nat _ hc
      split at hc
      · simp only [List.mem_append, List.mem_replicate] at hc
        rcases hc with hc | ⟨_, rfl⟩
        · exact nat _ hc
        · decide
      · simp only [List.mem_append, List.mem_cons] at hc
        rcases hc with hc | rfl | hc
        · exact nat _ (List.mem_of_mem_take hc)
        · decide
        · exact nat _ (List.mem_of_mem_drop hc)
  rw [fmtFloat_finite hf]
  split
  · intro c hc
    rcases List.mem_cons.1 hc with rfl | hc
    · decide
    · exact mag c hc
  · exact mag

/-- The text of an optional bound. -/
def optText (env : Env) : Option Bound → Bytes
  | some b => b.text env
  | none => []

theorem optText_inj (env : Env) {a b : Option Bound} (ha : Bound.Literal a) (hb : Bound.Literal b) (h : optText env a = optText env b) : a = b := by
  match a, b, ha, hb with
  | none, none, _, _ => rfl
  | none, some (.int n), _, _ => exact absurd h.symm (intToBytes_chars (n := n.toInt)).1
  | some (.int n), none, _, _ => exact absurd h (intToBytes_chars (n := n.toInt)).1
  | some (.int n), some (.int m), _, _ => rw [Int64.toInt_inj.1 (intToBytes_inj h)]
  | some (.expr e), _, ha, _ => exact absurd rfl (ha e)
  | _, some (.expr e), _, hb => exact absurd rfl (hb e)

theorem optText_chars (env : Env) {a : Option Bound} (ha : Bound.Literal a) : ∀ c ∈ optText env a, (48 ≤ c.toNat ∧ c.toNat ≤ 57) ∨ c.toNat = 45 := by
  match a, ha with
  | none, _ => intro c hc; cases hc
  | some (.int n), _ => exact intToBytes_chars.2
  | some (.expr e), ha => exact absurd rfl (ha e)

theorem Slice.text_eq (env : Env) (s : Slice) : s.text env = c! '[' :: (optText env s.start ++ c! ':' :: (optText env s.stop ++
    ((match s.stride with | some b => c! ':' :: b.text env | none => []) ++ [c! ']']))) := by
  unfold Slice.text optText
  rfl

theorem Slice.text_inj (env : Env) {s s' : Slice} (h : s.Literal) (h' : s'.Literal) (he : s.text env = s'.text env) : s = s' := by
  obtain ⟨a, b, c⟩ := s
  obtain ⟨a', b', c'⟩ := s'
  rw [Slice.text_eq, Slice.text_eq] at he
  have colon : ∀ {a}, Bound.Literal a → c! ':' ∉ optText env a := fun ha m => by
    have := optText_chars env ha _ m
    revert this; decide
  have close : ∀ {a}, Bound.Literal a → c! ']' ∉ optText env a := fun ha m => by
    have := optText_chars env ha _ m
    revert this; decide
  obtain ⟨h1, h2⟩ := split_at (colon h.1) (colon h'.1) (List.cons.inj he).2
  have e1 := optText_inj env h.1 h'.1 h1
  dsimp only at e1 h2
  have hb := h.2.1
  have hb' := h'.2.1
  have hc := h.2.2
  have hc' := h'.2.2
  dsimp only at hb hb' hc hc'
  match c, c', hc, hc' with
  | none, none, _, _ =>
    have := optText_inj env hb hb' (List.append_cancel_right h2)
    rw [e1, this]
  | some (.int n), some (.int m), _, _ =>
    obtain ⟨h3, h4⟩ := split_at (colon hb) (colon hb') h2
    have := optText_inj env hb hb' h3
    have h5 : n = m := Int64.toInt_inj.1 (intToBytes_inj (List.append_cancel_right h4))
    rw [e1, this, h5]
  | none, some (.int m), _, _ =>
    exfalso
    have m1 : c! ':' ∈ optText env b ++ ([] ++ [c! ']']) := by rw [h2]; simp
    simp at m1
    exact colon hb m1
  | some (.int n), none, _, _ =>
    exfalso
    have m1 : c! ':' ∈ optText env b' ++ ([] ++ [c! ']']) := by rw [← h2]; simp
    simp at m1
    exact colon hb' m1
  | some (.expr e), _, hc, _ => exact absurd rfl (hc e)
  | _, some (.expr e), _, hc' => exact absurd rfl (hc' e)

theorem PVal.text_piece (env : Env) {v : PVal} (h : v.Plain) : Piece (v.text env) := by
  cases v with
  | int n =>
    refine piece_word intToBytes_chars.1 fun c hc => ?_
    have := intToBytes_chars.2 c hc
    constructor <;> (rintro rfl; revert this; decide)
  | str s => exact piece_quote env s
  | re s => exact piece_quote env s
  | name s =>
    obtain ⟨c, w, rfl, h1, h2⟩ := h
    have letter : ∀ {c}, Letter c → c ≠ c! '"' ∧ c ≠ c! ' ' := by
      intro c h
      constructor <;> (rintro rfl; revert h; unfold Letter; decide)
    refine piece_word (by simp [PVal.text]) fun x hx => ?_
    rcases List.mem_cons.1 hx with rfl | hx
    · exact letter h1
    · rcases h2 x hx with h | h | h
      · exact letter h
      · constructor <;> (rintro rfl; revert h; unfold Digit; decide)
      · subst h; decide
  | slice s =>
    have num : ∀ {c : UInt8}, (48 ≤ c.toNat ∧ c.toNat ≤ 57) ∨ c.toNat = 45 → c ≠ c! '"' ∧ c ≠ c! ' ' := by
      intro c h
      constructor <;> (rintro rfl; revert h; decide)
    refine piece_word (by simp [PVal.text, Slice.text]) fun x hx => ?_
    simp only [PVal.text] at hx
    rw [Slice.text_eq] at hx
    simp only [List.mem_cons, List.mem_append] at hx
    rcases hx with rfl | hx | rfl | hx | hx | rfl | hx
    · decide
    · exact num (optText_chars env h.1 _ hx)
    · decide
    · exact num (optText_chars env h.2.1 _ hx)
    · cases hs : s.stride with
      | none => rw [hs] at hx; cases hx
      | some b =>
        rw [hs] at hx
        rcases List.mem_cons.1 hx with rfl | hx
        · decide
        · have := h.2.2
          rw [hs] at this
          exact num (optText_chars env this _ hx)
    · decide
    · cases hx
  | float f => exact piece_word (fmtFloat_ne h) (fmtFloat_chars h)

theorem PVal.text_inj (env : Env) {v w : PVal} (hv : v.Plain) (hw : w.Plain) (ho : v.op = w.op) (h : v.text env = w.text env) : v = w := by
  cases v <;> cases w <;> first | (cases ho; done) | skip
  · rw [Int64.toInt_inj.1 (intToBytes_inj h)]
  · have := ((goQuote_spec env _).prefix (goQuote_spec env _) (x := []) (y := []) (by simpa [PVal.text] using h)).2.1
    rw [this]
  · simp only [PVal.text] at h; rw [h]
  · rw [Slice.text_inj env hv hw h]
  · have h1 := parseFloat_fmtFloat env (x := _) hv
    rw [show fmtFloat _ = fmtFloat _ from h, parseFloat_fmtFloat env (x := _) hw] at h1
    rw [Option.some.inj h1]
  · have := ((goQuote_spec env _).prefix (goQuote_spec env _) (x := []) (y := []) (by simpa [PVal.text] using h)).2.1
    rw [this]

/-! ### The text of a program -/

theorem mapM_text : ∀ {os : List Order}, (∀ o ∈ os, ∃ t, o.text = some t) → ∃ ts, os.mapM Order.text = some ts ∧ os.map Order.text = ts.map some
  | [], _ => ⟨[], rfl, rfl⟩
  | o :: os, h => by
    obtain ⟨t, ht⟩ := h o (by simp)
    obtain ⟨ts, h1, h2⟩ := mapM_text (os := os) fun o m => h o (by simp [m])
    exact ⟨t :: ts, by simp [List.mapM_cons, ht, h1], by simp [ht, h2]⟩

theorem spaced_append : ∀ {a b : List Bytes}, b ≠ [] → spaced a ++ (if a.isEmpty then [] else [c! ' ']) ++ spaced b = spaced (a ++ b)
  | [], _, _ => rfl
  | [t], b, hb => by
    cases b with
    | nil => exact absurd rfl hb
    | cons u b => simp [spaced]
  | t :: u :: a, b, hb => by
    have := spaced_append (a := u :: a) hb
    simp only [List.isEmpty_cons] at this
    have e1 : spaced (t :: u :: a) = t ++ c! ' ' :: spaced (u :: a) := rfl
    have e2 : spaced (t :: u :: a ++ b) = t ++ c! ' ' :: spaced (u :: a ++ b) := rfl
    rw [e1, e2, ← this]
    simp

theorem program_text (env : Env) {p : Program} (h : OrdersOk p) (hu : p.orders = [] → p.vals = []) :
    ∃ ts, p.orders.map Order.text = ts.map some ∧ (∀ t ∈ ts, Piece t) ∧ p.text env = some (spaced (p.vals.map (PVal.text env) ++ ts)) := by
  obtain ⟨ts, h1, h2⟩ := mapM_text fun o ho => by
    obtain ⟨op, x, _, ht⟩ := reads_order (h.2 o ho)
    exact ⟨_, ht⟩
  refine ⟨ts, h2, ?_, ?_⟩
  · intro t ht
    have hm : some t ∈ ts.map some := List.mem_map_of_mem ht
    rw [← h2] at hm
    obtain ⟨o, ho, he⟩ := List.mem_map.1 hm
    obtain ⟨op, x, _, ht⟩ := reads_order (h.2 o ho)
    rw [ht] at he
    rw [← Option.some.inj he]
    refine piece_word (by simp [(trimOp_alpha op).1]) fun c hc => ?_
    rcases List.mem_append.1 hc with hc | hc
    · have := (trimOp_alpha op).2 c hc
      constructor <;> (rintro rfl; revert this; decide)
    · have num : ∀ {c : UInt8}, (48 ≤ c.toNat ∧ c.toNat ≤ 57) ∨ c.toNat = 45 → c ≠ c! '"' ∧ c ≠ c! ' ' := by
        intro c h
        constructor <;> (rintro rfl; revert h; decide)
      cases x with
      | none => cases hc
      | packed n =>
        simp only [Operand.text, List.mem_cons, List.mem_append, List.not_mem_nil, or_false] at hc
        rcases hc with rfl | hc | rfl
        · decide
        · exact num (intToBytes_chars.2 c hc)
        · decide
      | slot i =>
        simp only [Operand.text, List.mem_cons, List.mem_append, List.not_mem_nil, or_false] at hc
        rcases hc with rfl | hc | rfl
        · decide
        · exact num (Or.inl (natToBytes_chars.2 c hc))
        · decide
      | count n =>
        simp only [Operand.text, List.mem_cons] at hc
        rcases hc with rfl | hc
        · decide
        · exact num (intToBytes_chars.2 c hc)
  · unfold Program.text
    rw [h1]
    simp only [Option.map_some]
    congr 1
    by_cases ho : p.orders = []
    · have ht : ts = [] := by rw [ho] at h2; simpa using h2.symm
      simp [hu ho, ht, spaced]
    · have ht : ts ≠ [] := fun e => ho (by rw [e] at h2; simpa using h2)
      rw [← spaced_append ht]
      simp

/-- Every constant is used by an order. -/
def Used (p : Program) : Prop := ∀ i, i < p.vals.length → ∃ j ∈ p.refs, UInt32.toNat j = i

theorem Used.order {p : Program} (hu : Used p) (ho : OrdersOk p) {i : Nat} {v : PVal} (hv : p.vals[i]? = some v) :
    ∃ (k : Nat) (o : Order), p.orders[k]? = some o ∧ OrderReads p.vals o v.op (.slot i) ∧ o.text = some (trimOp v.op ++ (Operand.slot i).text) := by
  obtain ⟨j, hj, rfl⟩ := hu i (List.getElem?_eq_some_iff.1 hv).1
  obtain ⟨o, hm, hi⟩ := List.mem_filterMap.1 hj
  obtain ⟨k, hk⟩ := List.getElem?_of_mem hm
  refine ⟨k, o, hk, ?_⟩
  have h := ho.2 o hm
  cases h with
  | plain | leaf | small => rw [mkSmall_index] at hi; cases hi
  | const i w h1 h2 =>
    rw [mkOrder_index w.op i (by omega)] at hi
    cases hi
    rw [hv] at h2
    cases h2
    exact ⟨.slot _ v h1 hv, const_text v h1⟩

private theorem lengths (env : Env) {p q : Program} (hp : OrdersOk p) (hq : OrdersOk q) (uq : Used q)
    {ts us : List Bytes} (h1 : p.orders.map Order.text = ts.map some) (h2 : q.orders.map Order.text = us.map some)
    (h : p.vals.map (PVal.text env) ++ ts = q.vals.map (PVal.text env) ++ us) : q.vals.length ≤ p.vals.length := by
  refine Nat.le_of_not_lt fun hlt => ?_
  have hm : q.vals.length - 1 < q.vals.length := by omega
  obtain ⟨k, o, hk, -, ht⟩ := uq.order hq (List.getElem?_eq_getElem hm)
  generalize q.vals[q.vals.length - 1].op = op at ht
  have e1 : us[k]? = some (trimOp op ++ (Operand.slot (q.vals.length - 1)).text) := by
    have := congrArg (fun l => l[k]?) h2
    simp only [List.getElem?_map, hk, Option.map_some, ht] at this
    cases hu : us[k]? with
    | none => rw [hu] at this; cases this
    | some t => rw [hu] at this; simpa using this.symm
  have e2 := congrArg (fun l => l[q.vals.length + k]?) h
  rw [List.getElem?_append_right (by simp; omega), List.getElem?_append_right (by simp)] at e2
  simp only [List.length_map, Nat.add_sub_cancel_left] at e2
  rw [e1] at e2
  have e3 := congrArg (fun l => l[q.vals.length + k - p.vals.length]?) h1
  simp only [List.getElem?_map, e2, Option.map_some] at e3
  cases ho : p.orders[q.vals.length + k - p.vals.length]? with
  | none => rw [ho] at e3; cases e3
  | some o' =>
    rw [ho] at e3
    obtain ⟨op', x, h3, h4⟩ := reads_order (hp.2 o' (List.mem_of_getElem? ho))
    rw [Option.map_some, h4] at e3
    have e3 := Option.some.inj (Option.some.inj e3)
    obtain ⟨e4, e5⟩ := alpha_split (trimOp_alpha op').2 (trimOp_alpha op).2 x.text_alpha (Operand.text_alpha _) e3
    have e5 := Operand.text_inj e5
    subst e5
    generalize hx : Operand.slot (q.vals.length - 1) = x at h3
    cases h3 with
    | slot i v h5 h6 =>
      have := (List.getElem?_eq_some_iff.1 h6).1
      have := Operand.slot.inj hx
      omega
    | zero | count | leaf | packed => cases hx

/-- The text determines the program. -/
theorem program_text_inj (env : Env) {p q : Program} (hp : OrdersOk p) (hq : OrdersOk q) (up : Used p) (uq : Used q)
    (pp : ∀ v ∈ p.vals, v.Plain) (pq : ∀ v ∈ q.vals, v.Plain) (h : p.text env = q.text env) : p = q := by
  have ne : ∀ {p : Program}, Used p → p.orders = [] → p.vals = [] := by
    intro p up ho
    cases hv : p.vals with
    | nil => rfl
    | cons v r =>
      obtain ⟨j, hj, -⟩ := up 0 (by simp [hv])
      simp [Program.refs, ho] at hj
  obtain ⟨ts, h1, h2, h3⟩ := program_text env hp (ne up)
  obtain ⟨us, h4, h5, h6⟩ := program_text env hq (ne uq)
  rw [h3, h6] at h
  have pieces : ∀ {vs : List PVal} {ts : List Bytes}, (∀ v ∈ vs, v.Plain) → (∀ t ∈ ts, Piece t) → ∀ t ∈ vs.map (PVal.text env) ++ ts, Piece t := by
    intro vs ts hv ht t hm
    rcases List.mem_append.1 hm with hm | hm
    · obtain ⟨v, hv', rfl⟩ := List.mem_map.1 hm
      exact PVal.text_piece env (hv v hv')
    · exact ht t hm
  have he := spaced_inj (pieces pp h2) (pieces pq h5) (Option.some.inj h)
  have l1 := lengths env hp hq uq h1 h4 he
  have l2 := lengths env hq hp up h4 h1 he.symm
  obtain ⟨hv, ht⟩ := List.append_inj he (by simp; omega)
  subst ht
  have ho : p.orders = q.orders := by
    apply List.ext_getElem?
    intro k
    have e1 := congrArg (fun l => l[k]?) (h1.trans h4.symm)
    simp only [List.getElem?_map] at e1
    cases hk : p.orders[k]? with
    | none => rw [hk] at e1; cases hk' : q.orders[k]? with
      | none => rfl
      | some => rw [hk'] at e1; cases e1
    | some o => rw [hk] at e1; cases hk' : q.orders[k]? with
      | none => rw [hk'] at e1; cases e1
      | some o' =>
        rw [hk'] at e1
        obtain ⟨op, x, r1, t1⟩ := reads_order (hp.2 o (List.mem_of_getElem? hk))
        obtain ⟨op', x', r2, t2⟩ := reads_order (hq.2 o' (List.mem_of_getElem? hk'))
        rw [Option.map_some, Option.map_some, t1, t2] at e1
        rw [(order_text_inj r1 r2 (Option.some.inj (Option.some.inj e1))).2.2]
  have hvals : p.vals = q.vals := by
    apply List.ext_getElem?
    intro k
    have e1 := congrArg (fun l => l[k]?) hv
    simp only [List.getElem?_map] at e1
    cases hk : p.vals[k]? with
    | none => rw [hk] at e1; cases hk' : q.vals[k]? with
      | none => rfl
      | some => rw [hk'] at e1; cases e1
    | some v => rw [hk] at e1; cases hk' : q.vals[k]? with
      | none => rw [hk'] at e1; cases e1
      | some w =>
        rw [hk'] at e1
        obtain ⟨i, o, ho1, r1, t1⟩ := up.order hp hk
        have hm : o ∈ q.orders := by rw [← ho]; exact List.mem_of_getElem? ho1
        obtain ⟨op, x, r2, t2⟩ := reads_order (hq.2 o hm)
        rw [t1] at t2
        obtain ⟨e2, e3, -⟩ := order_text_inj r1 r2 (Option.some.inj t2)
        subst e3
        have hop : op = w.op := by
          generalize hx : Operand.slot k = x at r2
          cases r2 with
          | slot i' v' h5 h6 =>
            have := Operand.slot.inj hx
            subst this
            rw [hk'] at h6
            cases h6
            rfl
          | zero | count | leaf | packed => cases hx
        rw [PVal.text_inj env (pp v (List.mem_of_getElem? hk)) (pq w (List.mem_of_getElem? hk')) (e2.trans hop) (Option.some.inj e1)]
  cases p
  cases q
  simp only at ho hvals
  rw [ho, hvals]

/-! ### Constants of trees -/

mutual
theorem Spec.Tree.plain {env : Env} {lim : Bool} : ∀ {e : Expr}, Tree env lim e → ∀ v ∈ constsOf e, v.Plain
  | .int n, _, v, hv => by
    unfold constsOf bigInt at hv
    split at hv
    · cases hv
    · rw [List.mem_singleton.1 hv]; trivial
  | .float f, h, v, hv => by
    rw [constsOf, List.mem_singleton] at hv
    subst hv
    cases h with | float _ h1 h2 => exact h1
  | .str f, h, v, hv => by rw [constsOf, List.mem_singleton] at hv; subst hv; trivial
  | .re f, h, v, hv => by rw [constsOf, List.mem_singleton] at hv; subst hv; trivial
  | .name f, h, v, hv => by
    rw [constsOf, List.mem_singleton] at hv
    subst hv
    cases h with
    | name _ h1 =>
      obtain ⟨c, w, e, h2, h3⟩ := h1
      exact ⟨c, w, e, h2, fun x hx => (h3 x hx).elim Or.inl (fun h => Or.inr (Or.inl h))⟩
  | .bool _, _, v, hv => by rw [constsOf] at hv; cases hv
  | .null, _, v, hv => by rw [constsOf] at hv; cases hv
  | .current, _, v, hv => by rw [constsOf] at hv; cases hv
  | .root, _, v, hv => by rw [constsOf] at hv; cases hv
  | .inner op kids, h, v, hv => by
    rw [constsOf] at hv
    cases h with
    | unary _ e _ h1 => exact Spec.Trees.plain (es := [e]) (.cons _ _ h1 .nil) v hv
    | binary _ a b _ h1 h2 => exact Spec.Trees.plain (es := [a, b]) (.cons _ _ h1 (.cons _ _ h2 .nil)) v hv
    | call f es h1 h2 => exact Spec.Trees.plain (es := .name f :: es) (.cons _ _ h1 h2) v hv
    | index a b h1 h2 => exact Spec.Trees.plain (es := [a, b]) (.cons _ _ h1 (.cons _ _ h2 .nil)) v hv
    | dot e s h1 h2 =>
      simp only [constsOfAll, constsOf, List.append_nil, List.mem_append, List.mem_singleton] at hv
      rcases hv with hv | rfl
      · exact Spec.Tree.plain h1 v hv
      · obtain ⟨c, w, e, h2, h3⟩ := h2
        exact ⟨c, w, e, h2, fun x hx => (h3 x hx).elim Or.inl (fun h => Or.inr (Or.inl h))⟩
    | array _ h1 => exact Spec.Trees.plain h1 v hv
theorem Spec.Trees.plain {env : Env} {lim : Bool} : ∀ {es : List Expr}, Trees env lim es → ∀ v ∈ constsOfAll es, v.Plain
  | [], _, v, hv => by rw [constsOfAll] at hv; cases hv
  | e :: r, h, v, hv => by
    rw [constsOfAll] at hv
    cases h with
    | cons _ _ h1 h2 =>
      rcases List.mem_append.1 hv with hv | hv
      · exact Spec.Tree.plain h1 v hv
      · exact Spec.Trees.plain h2 v hv
end

theorem path_plain {env : Env} {lim : Bool} {p : Path} (h : TreePath env lim p) (hl : p.LiteralSlices) : ∀ v ∈ consts p, v.Plain := by
  intro v hv
  unfold consts at hv
  obtain ⟨s, hs, hv'⟩ := List.mem_flatMap.1 hv
  clear hv
  obtain ⟨a, ha, hv⟩ := List.mem_flatMap.1 hv'
  clear hv'
  have big : ∀ n : Int64, v ∈ bigInt n → v.Plain := fun n hv => by
    unfold bigInt at hv
    split at hv
    · cases hv
    · rw [List.mem_singleton.1 hv]; trivial
  have elem : ∀ {a}, TreeElem env lim a → a ∈ s.args → v ∈ constsOfVal a → v.Plain := by
    intro a h ha hv
    cases h with
    | int n => exact big n hv
    | str => rw [List.mem_singleton.1 hv]; trivial
    | name s h => rw [List.mem_singleton.1 hv]; exact h
    | slice => rw [List.mem_singleton.1 hv]; exact hl s hs _ ha
  have member : ∀ {a}, TreeMember env lim a → v ∈ constsOfVal a → v.Plain := by
    intro a h hv
    cases h with
    | int n => exact big n hv
    | name s h => rw [List.mem_singleton.1 hv]; exact h
    | expr e h => exact h.plain v hv
  have key : ∀ {a}, TreeKey env lim a → a ∈ s.args → v ∈ constsOfVal a → v.Plain := by
    intro a h ha hv
    cases h with
    | elem _ h => exact elem h ha hv
    | expr e h => exact h.plain v hv
  have ht := h s hs
  cases ht with
  | wild | nestWild => cases ha
  | filter e h | nestFilter e h => rw [List.mem_singleton.1 ha] at hv; exact h.plain v hv
  | member _ h | nestMember _ h => rw [List.mem_singleton.1 ha] at hv; exact member h hv
  | select _ h | nestSelect _ h =>
    have := List.mem_singleton.1 ha
    subst this
    exact key h (by simp) hv
  | union _ _ h | nestUnion _ _ h => exact elem (h a ha) ha hv

end JP
