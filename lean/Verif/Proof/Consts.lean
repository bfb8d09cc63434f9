import Verif.Spec.Consts
import Verif.Proof.Code
import Verif.Proof.ParseWF
import Verif.Proof.F64
import Verif.Proof.Sim
/-! The constant table of a program is built from the constants of the path, one after the other. -/
namespace JP
open Spec

theorem same_iff {a b : PVal} : Same a b ↔ a.keyEq b = true := by
  constructor
  · intro h
    cases h <;> simp [PVal.keyEq, *]
  · intro h
    cases a <;> cases b <;> simp [PVal.keyEq] at h
    all_goals first | (subst h; constructor) | exact .float _ _ h

theorem Spec.Same.symm {a b : PVal} (h : Same a b) : Same b a := by
  cases h with
  | float x y h => exact .float _ _ (by rw [F64.feq_comm]; exact h)
  | int n => exact .int n
  | str n => exact .str n
  | name n => exact .name n

theorem Spec.Same.trans {a b c : PVal} (h : Same a b) (h' : Same b c) : Same a c := by
  cases h with
  | float x y h =>
    cases h' with
    | float _ z h' => exact .float _ _ (by rw [F64.feq_left h]; exact h')
  | int n => exact h'
  | str n => exact h'
  | name n => exact h'

/-- The table and the references to it. -/
abbrev Tab := List PVal × List UInt32

/-- The effect of one constant. -/
def addConst (v : PVal) (t : Tab) : Option Tab :=
  match findVal v 0 t.1 with
  | some i => some (t.1, t.2 ++ [UInt32.ofNat i])
  | none => if indexTop ≤ t.1.length then none else some (t.1 ++ [v], t.2 ++ [UInt32.ofNat t.1.length])

/-- The effect of several. -/
def addConsts : List PVal → Tab → Option Tab
  | [], t => some t
  | v :: r, t => (addConst v t).bind (addConsts r)

theorem addConsts_append : ∀ (a b : List PVal) (t : Tab), addConsts (a ++ b) t = (addConsts a t).bind (addConsts b)
  | [], b, t => rfl
  | v :: r, b, t => by
    show (addConst v t).bind (addConsts (r ++ b)) = ((addConst v t).bind (addConsts r)).bind (addConsts b)
    cases addConst v t with
    | none => rfl
    | some t => exact addConsts_append r b t

/-- A part of the generator that adds the constants `cs`. -/
def TabAdds (cs : List PVal) (p : Program) (r : Res CErr Program) : Prop :=
  p.Small → match r with
  | .ok p' => addConsts cs (p.vals, p.refs) = some (p'.vals, p'.refs) ∧ p'.Small
  | .err _ => addConsts cs (p.vals, p.refs) = none
  | _ => True

theorem TabAdds.bind {a b : List PVal} {p : Program} {r : Res CErr Program} {f : Program → Res CErr Program} (h : TabAdds a p r)
    (h' : ∀ p', r = .ok p' → TabAdds b p' (f p')) : TabAdds (a ++ b) p (r >>= f) := by
  intro hp
  have := h hp
  cases r with
  | ok p' =>
    have h2 := h' p' rfl this.2
    show match f p' with | .ok p'' => _ | .err _ => _ | _ => True
    rw [addConsts_append, this.1]
    exact h2
  | err e =>
    show addConsts (a ++ b) _ = none
    rw [addConsts_append, this]
    rfl
  | panic => trivial
  | stuck => trivial

theorem mkSmall_index (op : Op) (n : Int64) : (mkSmall op n).index = none := by
  have h2 := mkSmall_isSmallInt op n
  unfold Order.index
  unfold Order.isSmallInt at h2
  rw [if_pos h2]

theorem refs_asm (o : Order) (p : Program) : (asm o p).refs = p.refs ++ (o.index.toList) := by
  simp only [Program.refs, asm, List.filterMap_append]
  cases h : o.index <;> simp [h]

theorem asm_small_adds (op : Op) (n : Int64) (p : Program) : TabAdds [] p (.ok (asm (mkSmall op n) p)) := by
  intro hp
  refine ⟨?_, hp⟩
  rw [refs_asm, mkSmall_index]
  simp [addConsts, asm]

theorem mkVal_adds (op : Op) (v : PVal) (p : Program) :
    TabAdds [v] p (do
      let (i, p) ← mkVal v p
      .ok (asm (mkOrder op i) p)) := by
  intro hp
  have hsm := hp
  cases hm : mkVal v p with
  | ok ip =>
    obtain ⟨i, p'⟩ := ip
    obtain ⟨ho, -, hs, hi, -⟩ := mkVal_ok hm hp
    refine ⟨?_, hs⟩
    show addConsts [v] _ = some ((asm (mkOrder op i) p').vals, (asm (mkOrder op i) p').refs)
    rw [refs_asm, mkOrder_index _ _ (by omega)]
    have hr : p'.refs = p.refs := by unfold Program.refs; rw [ho]
    rw [hr]
    unfold mkVal at hm
    simp only [addConsts, addConst]
    cases hf : findVal v 0 p.vals with
    | some j =>
      rw [hf] at hm
      cases hm
      simp [asm]
    | none =>
      rw [hf] at hm
      dsimp only at hm
      split at hm
      · cases hm
      · rename_i hlt
        cases hm
        simp [asm, hlt]
  | err e =>
    show addConsts [v] _ = none
    unfold mkVal at hm
    simp only [addConsts, addConst]
    cases hf : findVal v 0 p.vals with
    | some j => rw [hf] at hm; cases hm
    | none =>
      rw [hf] at hm
      dsimp only at hm
      split at hm
      · rename_i hlt; simp [hlt]
      · cases hm
  | panic => trivial
  | stuck => trivial

theorem bigInt_eq (n : Int64) : bigInt n = if isSmallInt n = true then [] else [.int n] := by
  unfold bigInt
  have := Int64.small_iff n
  by_cases h : isSmallInt n = true
  · rw [if_pos h, if_pos (by have := this.1 h; omega)]
  · rw [if_neg h, if_neg (by intro hc; exact h (this.2 (by omega)))]

theorem codeOp_int_adds (op : Op) (n : Int64) (p : Program) : TabAdds (bigInt n) p (codeOp op (some (.int n)) p) := by
  rw [bigInt_eq]
  unfold codeOp
  dsimp only
  by_cases h : isSmallInt n = true
  · rw [if_pos h, if_pos h]; exact asm_small_adds _ _ _
  · rw [if_neg h, if_neg h]; exact mkVal_adds _ _ _

theorem codeOp_adds (op : Op) (v : PVal) (hv : ∀ n, v ≠ .int n) (p : Program) : TabAdds [v] p (codeOp op (some v) p) := by
  cases v with
  | int n => exact absurd rfl (hv n)
  | _ => exact mkVal_adds _ _ _

mutual
theorem codeExpr_adds : ∀ (e : Expr) (_ : e.WF) (p : Program), TabAdds (constsOf e) p (codeExpr e p)
  | .int n, _, p => by
    unfold constsOf codeExpr
    rw [bigInt_eq]
    by_cases h : isSmallInt n = true
    · rw [if_pos h, if_pos h]; exact asm_small_adds _ _ _
    · rw [if_neg h, if_neg h]
      have := codeOp_int_adds .int n p
      rwa [bigInt_eq, if_neg h] at this
  | .float f, _, p => by unfold constsOf codeExpr; exact codeOp_adds _ _ (by simp) _
  | .str f, _, p => by unfold constsOf codeExpr; exact codeOp_adds _ _ (by simp) _
  | .name f, _, p => by unfold constsOf codeExpr; exact codeOp_adds _ _ (by simp) _
  | .re f, _, p => by unfold constsOf codeExpr; exact codeOp_adds _ _ (by simp) _
  | .bool b, _, p => by unfold constsOf codeExpr; exact asm_small_adds _ _ _
  | .null, _, p => by unfold constsOf codeExpr; exact asm_small_adds _ _ _
  | .current, _, p => by unfold constsOf codeExpr; exact asm_small_adds _ _ _
  | .root, _, p => by unfold constsOf codeExpr; exact asm_small_adds _ _ _
  | .inner op kids, h, p => by
    unfold constsOf codeExpr
    rw [if_neg (by rw [notLeaf_of_wf h]; decide)]
    have := (codeKids_adds kids (kids_of_wf h) p).bind (f := fun p => .ok (asm (mkSmall op (lenInt kids)) p))
      (fun p' _ => asm_small_adds _ _ p')
    rwa [List.append_nil] at this
theorem codeKids_adds : ∀ (es : List Expr) (_ : Exprs.WF es) (p : Program), TabAdds (constsOfAll es) p (codeKids es p)
  | [], _, p => by unfold constsOfAll codeKids; exact fun hp => ⟨rfl, hp⟩
  | e :: r, h, p => by
    unfold constsOfAll codeKids
    have : e.WF ∧ Exprs.WF r := by cases h with | cons _ _ h1 h2 => exact ⟨h1, h2⟩
    exact (codeExpr_adds e this.1 p).bind (fun p' _ => codeKids_adds r this.2 p')
end

theorem codeVal_adds (v : Val) (h : v.WF) (p : Program) : TabAdds (constsOfVal v) p (codeVal (valOp v) v p) := by
  cases v with
  | expr e => exact codeExpr_adds e h p
  | int n => exact codeOp_int_adds .int n p
  | _ => exact codeOp_adds _ _ (by simp) p

theorem codeArgs_adds : ∀ (vs : List Val) (_ : ∀ v ∈ vs, v.WF) (p : Program),
    TabAdds (vs.flatMap constsOfVal) p (codeArgs vs p)
  | [], _, p => by unfold codeArgs; exact fun hp => ⟨rfl, hp⟩
  | v :: r, h, p => by
    rw [List.flatMap_cons]
    unfold codeArgs
    exact (codeVal_adds v (h v (by simp)) p).bind (fun p' _ => codeArgs_adds r (fun v hm => h v (by simp [hm])) p')

theorem codeStep_adds (s : Step) (h : s.WF) (p : Program) : TabAdds (s.args.flatMap constsOfVal) p (codeStep s p) := by
  unfold codeStep
  have := (codeArgs_adds s.args h.1 p).bind (f := fun p => .ok (asm (mkSmall s.op (lenInt s.args)) p))
    (fun p' _ => asm_small_adds _ _ p')
  rwa [List.append_nil] at this

theorem filterMap_set {α β : Type} (f : α → Option β) (x : α) (hx : f x = none) : ∀ (l : List α) (i : Nat),
    (∀ y, l[i]? = some y → f y = none) → (l.set i x).filterMap f = l.filterMap f
  | [], i, _ => rfl
  | y :: l, 0, h => by
    rw [List.set_cons_zero, List.filterMap_cons_none hx, List.filterMap_cons_none (h y rfl)]
  | y :: l, i + 1, h => by
    rw [List.set_cons_succ, List.filterMap_cons, List.filterMap_cons, filterMap_set f x hx l i (by simpa using h)]

theorem codeLoop_adds (s : Step) (h : s.WF) (op : Op) (p : Program) : TabAdds (s.args.flatMap constsOfVal) p (codeLoop s op p) := by
  intro hp
  have key := ((asm_small_adds op 0 p).bind (b := s.args.flatMap constsOfVal) (f := fun p => codeStep s p) (fun p' _ => codeStep_adds s h p')) hp
  rw [List.nil_append] at key
  change match codeStep s (asm (mkSmall op 0) p) with | .ok p' => _ | .err _ => _ | _ => True at key
  unfold codeLoop
  dsimp only
  cases hc : codeStep s (asm (mkSmall op 0) p) with
  | ok p' =>
    rw [hc] at key
    refine ⟨?_, key.2⟩
    rw [key.1]
    have hg := codeStep_grows hc
    show some (p'.vals, p'.refs) = some (_, Program.refs (patch _ _ _))
    simp only [patch, asm]
    have : Program.refs ⟨p'.vals, (p'.orders ++ [mkSmall Op.rep (Int64.ofNat (p.orders ++ [mkSmall op 0]).length)]).set p.orders.length
        (mkSmall op (Int64.ofNat (p'.orders ++ [mkSmall Op.rep (Int64.ofNat (p.orders ++ [mkSmall op 0]).length)]).length))⟩ = p'.refs := by
      unfold Program.refs
      rw [filterMap_set _ _ (mkSmall_index _ _)]
      · rw [List.filterMap_append, List.filterMap_cons_none (mkSmall_index _ _)]
        simp
      · intro y hy
        obtain ⟨t, ht⟩ := hg.orders
        rw [← ht] at hy
        simp [asm] at hy
        rw [← hy]
        exact mkSmall_index _ _
    rw [this]
  | err e => rw [hc] at key; exact key
  | panic => trivial
  | stuck => trivial

theorem codePathStep_adds (s : Step) (h : s.WF) (p : Program) : TabAdds (s.args.flatMap constsOfVal) p (codePathStep s p) := by
  have hno : (s.op.isLeaf && s.op.hasVal) = false := by
    have := h.2
    cases hop : s.op <;> rw [hop] at this <;> first | rfl | exact this.elim
  unfold codePathStep
  rw [if_neg (by rw [hno]; decide)]
  cases s.op <;> first | exact codeLoop_adds s h _ p | exact codeStep_adds s h p

theorem codePath_adds : ∀ (path : Path) (_ : path.WF) (p : Program), TabAdds (consts path) p (codePath path p)
  | [], _, p => by unfold codePath; exact fun hp => ⟨rfl, hp⟩
  | s :: r, h, p => by
    unfold codePath
    exact (codePathStep_adds s (h s (by simp)) p).bind (fun p' _ => codePath_adds r (fun v hm => h v (by simp [hm])) p')

/-- What holds of a table and its references, after the constants `cs`. -/
structure TabInv (cs : List PVal) (t : Tab) : Prop where
  distinct : t.1.Pairwise fun a b => ¬ Same a b
  len : t.2.length = cs.length
  slot : ∀ (k : Nat) c, cs[k]? = some c → ∃ (i : UInt32) (w : PVal), t.2[k]? = some i ∧ t.1[i.toNat]? = some w ∧ (w = c ∨ Same w c)
  share : ∀ (j k : Nat) (c : PVal) (i : UInt32), cs[k]? = some c → j < k → t.2[j]? = some i → t.2[k]? = some i → Same c c
  used : ∀ (i : Nat) (w : PVal), t.1[i]? = some w → ∃ (k : Nat) (j : UInt32), cs[k]? = some w ∧ t.2[k]? = some j ∧ j.toNat = i
  small : t.1.length ≤ indexTop
  sub : t.1.Sublist cs
  count : ∀ (l : List PVal) (P : PVal → Bool), l.Sublist cs → l.Pairwise (fun a b => ¬ Same a b) →
    (∀ a b, Same a b → P a = P b) → (l.filter P).length ≤ (t.1.filter P).length

theorem tab_nil : TabInv [] ([], []) :=
  ⟨.nil, rfl, by simp, by simp, by simp, by simp, .slnil, by intro l P hl _ _; simp at hl; simp [hl]⟩

private theorem sub_snoc {l cs : List PVal} {v : PVal} (h : l.Sublist (cs ++ [v])) : l.Sublist cs ∨ ∃ l', l = l' ++ [v] ∧ l'.Sublist cs := by
  obtain ⟨a, b, rfl, ha, hb⟩ := List.sublist_append_iff.1 h
  cases b with
  | nil => exact .inl (by simpa using ha)
  | cons x r =>
    have := hb.length_le
    cases r with
    | cons => simp at this
    | nil =>
      have := hb.subset (List.mem_singleton.2 rfl)
      simp at this
      exact .inr ⟨a, by rw [this], ha⟩

theorem tab_add {cs : List PVal} {t t' : Tab} (h : TabInv cs t) (v : PVal) (hv : addConst v t = some t') : TabInv (cs ++ [v]) t' := by
  unfold addConst at hv
  have hsm := h.small
  unfold indexTop at hsm
  have lt_of : ∀ {k : Nat} {i : UInt32}, t.2[k]? = some i → i.toNat < t.1.length := by
    intro k i hk
    have hkl := (List.getElem?_eq_some_iff.mp hk).1
    rw [h.len] at hkl
    obtain ⟨i', w, h1, h2, -⟩ := h.slot k _ (List.getElem?_eq_getElem hkl)
    rw [hk] at h1
    cases h1
    exact (List.getElem?_eq_some_iff.mp h2).1
  have app : ∀ {α : Type} {l : List α} {k : Nat} {a b : α}, (l ++ [b])[k]? = some a → l[k]? = some a ∨ (k = l.length ∧ a = b) := by
    intro α l k a b hk
    rw [List.getElem?_append] at hk
    split at hk
    · exact .inl hk
    · rename_i hlt
      have := (List.getElem?_eq_some_iff.mp hk).1
      simp at this
      have h0 : k - l.length = 0 := by omega
      rw [h0] at hk
      simp at hk
      exact .inr ⟨by omega, hk.symm⟩
  have appl : ∀ {α : Type} {l : List α} {k : Nat} {a : α} (b : α), l[k]? = some a → (l ++ [b])[k]? = some a := by
    intro α l k a b hk
    rw [List.getElem?_append_left (List.getElem?_eq_some_iff.mp hk).1]; exact hk
  cases hf : findVal v 0 t.1 with
  | some i =>
    rw [hf] at hv
    cases hv
    obtain ⟨k, hk, w, hw, he⟩ := findVal_spec v _ _ _ hf
    have hkl := (List.getElem?_eq_some_iff.mp hw).1
    have hto : (UInt32.ofNat i).toNat = k := by
      rw [UInt32.toNat_ofNat_of_lt']
      · omega
      · show i < 2 ^ 32
        omega
    have hs : Same w v := same_iff.2 he
    refine ⟨h.distinct, by simp [h.len], ?_, ?_, ?_, h.small, h.sub.trans (List.sublist_append_left _ _), ?_⟩
    · intro k' c hc
      rcases app hc with hc | ⟨rfl, rfl⟩
      · obtain ⟨i', w', h1, h2, h3⟩ := h.slot k' c hc
        exact ⟨i', w', appl _ h1, h2, h3⟩
      · exact ⟨UInt32.ofNat i, w, by rw [← h.len]; simp, by rw [hto]; exact hw, .inr hs⟩
    · intro j k' c i' hc hj h1 h2
      rcases app hc with hc | ⟨rfl, rfl⟩
      · have hk'l := (List.getElem?_eq_some_iff.mp hc).1
        rw [List.getElem?_append_left (by rw [h.len]; omega)] at h1 h2
        exact h.share j k' c i' hc hj h1 h2
      · exact hs.symm.trans hs
    · intro i' w' hw'
      obtain ⟨k', j, h1, h2, h3⟩ := h.used i' w' hw'
      exact ⟨k', j, appl _ h1, appl _ h2, h3⟩
    · intro l P hl hd hP
      rcases sub_snoc hl with hl' | ⟨l', rfl, hl'⟩
      · exact h.count l P hl' hd hP
      · rw [List.pairwise_append] at hd
        have hne : ∀ a ∈ l', ¬ Same a v := fun a ha => hd.2.2 a ha v (by simp)
        rw [List.filter_append, List.length_append]
        by_cases hPv : P v = true
        · have hc := h.count l' (fun a => P a && !(a.keyEq v)) hl' hd.1 (by
            intro a b hab
            rw [hP a b hab]
            congr 2
            rw [Bool.eq_iff_iff, ← same_iff, ← same_iff]
            exact ⟨fun h => hab.symm.trans h, fun h => hab.trans h⟩)
          have hl2 : l'.filter (fun a => P a && !(a.keyEq v)) = l'.filter P := by
            apply List.filter_congr
            intro a ha
            have : a.keyEq v = false := by
              cases hk : a.keyEq v with
              | false => rfl
              | true => exact absurd (same_iff.2 hk) (hne a ha)
            simp [this]
          rw [hl2] at hc
          have hlt : (t.1.filter (fun a => P a && !(a.keyEq v))).length < (t.1.filter P).length := by
            have hPw : P w = true := by rw [hP w v hs]; exact hPv
            have hmem : w ∈ t.1.filter P := List.mem_filter.2 ⟨List.mem_of_getElem? hw, hPw⟩
            have : t.1.filter (fun a => P a && !(a.keyEq v)) = (t.1.filter P).filter (fun a => !(a.keyEq v)) := by
              rw [List.filter_filter]
              apply List.filter_congr
              intro a _
              rw [Bool.and_comm]
            rw [this]
            rw [List.length_filter_lt_length_iff_exists]
            exact ⟨w, hmem, by simp [he]⟩
          simp [hPv]
          omega
        · have hc := h.count l' P hl' hd.1 hP
          simp [hPv]
          exact hc
  | none =>
    rw [hf] at hv
    dsimp only at hv
    split at hv
    · cases hv
    · rename_i hlt
      cases hv
      have hto : (UInt32.ofNat t.1.length).toNat = t.1.length := by
        rw [UInt32.toNat_ofNat_of_lt']
        show t.1.length < 2 ^ 32
        omega
      have hnew := findVal_none v _ _ hf
      refine ⟨?_, by simp [h.len], ?_, ?_, ?_, ?_, h.sub.append (.refl _), ?_⟩
      · rw [List.pairwise_append]
        refine ⟨h.distinct, by simp, ?_⟩
        intro a ha b hb
        simp at hb
        subst hb
        intro hs
        have := hnew a ha
        rw [same_iff.1 hs] at this
        cases this
      · intro k' c hc
        rcases app hc with hc | ⟨rfl, rfl⟩
        · obtain ⟨i', w', h1, h2, h3⟩ := h.slot k' c hc
          exact ⟨i', w', appl _ h1, appl _ h2, h3⟩
        · exact ⟨UInt32.ofNat t.1.length, c, by rw [← h.len]; simp, by rw [hto]; simp, .inl rfl⟩
      · intro j k' c i' hc hj h1 h2
        rcases app hc with hc | ⟨rfl, rfl⟩
        · have hk'l := (List.getElem?_eq_some_iff.mp hc).1
          rw [List.getElem?_append_left (by rw [h.len]; omega)] at h1 h2
          exact h.share j k' c i' hc hj h1 h2
        · rw [List.getElem?_append_left (by rw [h.len]; omega)] at h1
          have := lt_of h1
          rw [← h.len] at h2
          simp at h2
          rw [← h2, hto] at this
          omega
      · intro i' w' hw'
        rcases app hw' with hw' | ⟨rfl, rfl⟩
        · obtain ⟨k', j, h1, h2, h3⟩ := h.used i' w' hw'
          exact ⟨k', j, appl _ h1, appl _ h2, h3⟩
        · exact ⟨cs.length, UInt32.ofNat t.1.length, by simp, by rw [← h.len]; simp, hto⟩
      · simp; omega
      · intro l P hl hd hP
        rw [List.filter_append, List.length_append]
        rcases sub_snoc hl with hl' | ⟨l', rfl, hl'⟩
        · have := h.count l P hl' hd hP
          omega
        · rw [List.pairwise_append] at hd
          have := h.count l' P hl' hd.1 hP
          rw [List.filter_append, List.length_append]
          omega

theorem tab_adds : ∀ (more : List PVal) {cs : List PVal} {t t' : Tab}, TabInv cs t → addConsts more t = some t' → TabInv (cs ++ more) t'
  | [], cs, t, t', h, ha => by cases ha; simpa using h
  | v :: r, cs, t, t', h, ha => by
    unfold addConsts at ha
    cases hv : addConst v t with
    | none => rw [hv] at ha; cases ha
    | some t2 =>
      rw [hv] at ha
      have := tab_adds r (tab_add h v hv) ha
      rwa [List.append_assoc] at this

/-- When there is no place for the next constant, there are 2^22 constants that differ from one another and
from it. -/
theorem tab_full : ∀ (more : List PVal) {cs : List PVal} {t : Tab}, TabInv cs t → addConsts more t = none →
    ∃ l : List PVal, l.Pairwise (fun a b => ¬ Same a b) ∧ l.length = indexTop + 1 ∧ l.Sublist (cs ++ more)
  | [], cs, t, h, ha => by cases ha
  | v :: r, cs, t, h, ha => by
    unfold addConsts at ha
    cases hv : addConst v t with
    | some t2 =>
      rw [hv] at ha
      have := tab_full r (tab_add h v hv) ha
      rwa [List.append_assoc] at this
    | none =>
      unfold addConst at hv
      cases hf : findVal v 0 t.1 with
      | some i => rw [hf] at hv; cases hv
      | none =>
        rw [hf] at hv
        dsimp only at hv
        split at hv
        · rename_i hle
          have := h.small
          refine ⟨t.1 ++ [v], ?_, by simp; omega, ?_⟩
          · rw [List.pairwise_append]
            refine ⟨h.distinct, by simp, ?_⟩
            intro a hm b hb
            simp at hb
            subst hb
            intro hs
            have := findVal_none _ _ _ hf a hm
            rw [same_iff.1 hs] at this
            cases this
          · exact h.sub.append (List.singleton_sublist.2 (by simp))
        · cases hv

mutual
theorem constsOf_ok : ∀ (e : Expr) (_ : e.WF), ∀ c ∈ constsOf e, c.Ok
  | .int n, _ => by
    unfold constsOf bigInt
    split <;> simp [PVal.Ok]
  | .float f, h => by
    unfold constsOf
    cases h with | float _ h => simp [PVal.Ok, h]
  | .str f, _ => by simp [constsOf, PVal.Ok]
  | .name f, _ => by simp [constsOf, PVal.Ok]
  | .re f, _ => by simp [constsOf, PVal.Ok]
  | .bool b, _ => by simp [constsOf]
  | .null, _ => by simp [constsOf]
  | .current, _ => by simp [constsOf]
  | .root, _ => by simp [constsOf]
  | .inner op kids, h => by
    unfold constsOf
    exact constsOfAll_ok kids (kids_of_wf h)
theorem constsOfAll_ok : ∀ (es : List Expr) (_ : Exprs.WF es), ∀ c ∈ constsOfAll es, c.Ok
  | [], _ => by simp [constsOfAll]
  | e :: r, h => by
    unfold constsOfAll
    have : e.WF ∧ Exprs.WF r := by cases h with | cons _ _ h1 h2 => exact ⟨h1, h2⟩
    intro c hc
    rcases List.mem_append.1 hc with hc | hc
    · exact constsOf_ok e this.1 c hc
    · exact constsOfAll_ok r this.2 c hc
end

theorem consts_ok (path : Path) (h : path.WF) : ∀ c ∈ consts path, c.Ok := by
  intro c hc
  simp only [consts, List.mem_flatMap] at hc
  obtain ⟨s, hs, v, hv, hc⟩ := hc
  have hw := (h s hs).1 v hv
  cases v with
  | expr e => exact constsOf_ok e hw c hc
  | int n =>
    revert hc
    simp only [constsOfVal, bigInt]
    split <;> simp +contextual [PVal.Ok]
  | name | str | slice => simp [constsOfVal] at hc; simp [hc, PVal.Ok]

/-- A compiled path and its table. -/
theorem compile_tab (path : Path) (hw : path.WF) {prog : Program} (h : compile path = .ok prog) :
    TabInv (consts path) (prog.vals, prog.refs) := by
  have := codePath_adds path hw ⟨[], []⟩ (by simp [Program.Small])
  unfold compile at h
  rw [h] at this
  exact tab_adds (consts path) tab_nil this.1

end JP
