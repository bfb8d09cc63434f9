import Verif.Model.Coder
import Verif.Spec.WF
import Verif.Proof.Order
/-! Lemmas about the code generator: programs only grow; lengths; constants. -/
namespace JP

/-- `p'` is `p` with more orders and constants at the end. -/
structure Extends (p p' : Program) : Prop where
  orders : p.orders <+: p'.orders
  vals : p.vals <+: p'.vals

theorem Extends.refl (p : Program) : Extends p p := ⟨List.prefix_rfl, List.prefix_rfl⟩

theorem Extends.trans {p q r : Program} (h : Extends p q) (h' : Extends q r) : Extends p r :=
  ⟨h.orders.trans h'.orders, h.vals.trans h'.vals⟩

theorem asm_extends (o : Order) (p : Program) : Extends p (asm o p) :=
  ⟨List.prefix_append _ _, List.prefix_rfl⟩

theorem asm_length (o : Order) (p : Program) : (asm o p).orders.length = p.orders.length + 1 := by
  simp [asm]

theorem bind_eq_ok {ε α β : Type} {x : Res ε α} {f : α → Res ε β} {b : β} (h : (x >>= f) = .ok b) :
    ∃ a, x = .ok a ∧ f a = .ok b := by
  cases x with
  | ok a => exact ⟨a, rfl, h⟩
  | err e => cases h
  | panic m => cases h
  | stuck => cases h

theorem findVal_spec (v : PVal) : ∀ (l : List PVal) (i j : Nat), findVal v i l = some j →
    ∃ k, j = i + k ∧ ∃ w, l[k]? = some w ∧ w.keyEq v = true
  | [], _, _, h => by cases h
  | w :: r, i, j, h => by
    unfold findVal at h
    split at h
    · next hw => cases h; exact ⟨0, rfl, w, rfl, hw⟩
    · obtain ⟨k, hk, w', hw', he⟩ := findVal_spec v r (i + 1) j h
      exact ⟨k + 1, by omega, w', by simpa using hw', he⟩

theorem findVal_none (v : PVal) : ∀ (l : List PVal) (i : Nat), findVal v i l = none →
    ∀ w ∈ l, w.keyEq v = false
  | [], _, _ => by simp
  | w :: r, i, h => by
    unfold findVal at h
    split at h
    · cases h
    · next hw =>
      intro w' hm
      rcases List.mem_cons.mp hm with rfl | hm
      · simpa using hw
      · exact findVal_none v r _ h w' hm

/-- The table of a program under construction never reaches 2^22 entries. -/
def Program.Small (p : Program) : Prop := p.vals.length ≤ indexTop

theorem mkVal_ok {v : PVal} {p p' : Program} {i : UInt32} (h : mkVal v p = .ok (i, p'))
    (hp : p.Small) :
    p'.orders = p.orders ∧ p.vals <+: p'.vals ∧ p'.Small ∧ i.toNat < 2 ^ 22 ∧
      ∃ w, p'.vals[i.toNat]? = some w ∧ (w = v ∨ w.keyEq v = true) := by
  unfold mkVal at h
  unfold Program.Small indexTop at hp
  split at h
  · next j hj =>
    cases h
    obtain ⟨k, hk, w, hw, he⟩ := findVal_spec v _ _ _ hj
    have hk' : k < p.vals.length := (List.getElem?_eq_some_iff.mp hw).1
    have hjk : j = k := by omega
    have hto : (UInt32.ofNat j).toNat = k := by
      rw [UInt32.toNat_ofNat_of_lt']
      · exact hjk
      · show j < 2 ^ 32
        omega
    refine ⟨rfl, List.prefix_rfl, hp, by omega, w, ?_, Or.inr he⟩
    rw [hto]; exact hw
  · simp only at h
    split at h
    · cases h
    · next hlt =>
      unfold indexTop at hlt
      cases h
      have hto : (UInt32.ofNat p.vals.length).toNat = p.vals.length := by
        rw [UInt32.toNat_ofNat_of_lt']
        show p.vals.length < 2 ^ 32
        omega
      refine ⟨rfl, List.prefix_append _ _, ?_, by omega, v, ?_, Or.inl rfl⟩
      · unfold Program.Small indexTop; simp; omega
      · rw [hto]; simp

/-- The shape of a successful `codeOp`: one order is added, either with the value in it, or with the
index of an equal constant. -/
theorem codeOp_ok {op : Op} {v : PVal} {p p' : Program} (h : codeOp op (some v) p = .ok p')
    (hp : p.Small) :
    ∃ o, p'.orders = p.orders ++ [o] ∧ p.vals <+: p'.vals ∧ p'.Small ∧
      ((∃ n, v = .int n ∧ isSmallInt n = true ∧ o = mkSmall op n) ∨
       (∃ i w, o = mkOrder op i ∧ i.toNat < 2 ^ 22 ∧ p'.vals[i.toNat]? = some w ∧
          (w = v ∨ w.keyEq v = true))) := by
  have gen : (do
      let (i, p) ← mkVal v p
      Res.ok (asm (mkOrder op i) p) : Res CErr Program) = .ok p' →
      ∃ o, p'.orders = p.orders ++ [o] ∧ p.vals <+: p'.vals ∧ p'.Small ∧
       (∃ i w, o = mkOrder op i ∧ i.toNat < 2 ^ 22 ∧ p'.vals[i.toNat]? = some w ∧
          (w = v ∨ w.keyEq v = true)) := by
    intro h
    obtain ⟨⟨i, q⟩, hq, h⟩ := bind_eq_ok h
    cases h
    obtain ⟨h1, h2, h3, h4, w, h5, h6⟩ := mkVal_ok hq hp
    exact ⟨mkOrder op i, by simp [asm, h1], h2, h3, i, w, rfl, h4, h5, h6⟩
  unfold codeOp at h
  cases v with
  | int n =>
    simp only at h
    split at h
    · next hs => cases h; exact ⟨_, rfl, List.prefix_rfl, hp, Or.inl ⟨n, rfl, hs, rfl⟩⟩
    · obtain ⟨o, h1, h2, h3, h4⟩ := gen h; exact ⟨o, h1, h2, h3, Or.inr h4⟩
  | _ => obtain ⟨o, h1, h2, h3, h4⟩ := gen h; exact ⟨o, h1, h2, h3, Or.inr h4⟩

/-- What every part of the code generator does to the program: orders and constants are appended. -/
structure Grows (p p' : Program) (k : Nat) : Prop extends Extends p p' where
  len : p.orders.length + k ≤ p'.orders.length
  small : p.Small → p'.Small

theorem Grows.trans {p q r : Program} {j k : Nat} (h : Grows p q j) (h' : Grows q r k) :
    Grows p r (j + k) :=
  ⟨h.toExtends.trans h'.toExtends, by have := h.len; have := h'.len; omega, fun x => h'.small (h.small x)⟩

theorem Grows.mono {p q : Program} {j k : Nat} (h : Grows p q j) (hk : k ≤ j) : Grows p q k :=
  ⟨h.toExtends, by have := h.len; omega, h.small⟩

theorem asm_grows (o : Order) (p : Program) : Grows p (asm o p) 1 :=
  ⟨asm_extends o p, by simp [asm], id⟩

theorem mkVal_grows {v : PVal} {p p' : Program} {i : UInt32} (h : mkVal v p = .ok (i, p')) :
    Grows p p' 0 ∧ p'.orders = p.orders := by
  unfold mkVal at h
  split at h
  · cases h; exact ⟨⟨Extends.refl _, by simp, id⟩, rfl⟩
  · simp only at h
    split at h
    · cases h
    · next hlt =>
      cases h
      refine ⟨⟨⟨List.prefix_rfl, List.prefix_append _ _⟩, by simp, fun _ => ?_⟩, rfl⟩
      unfold Program.Small
      simp; omega

theorem codeOp_grows {op : Op} {v : Option PVal} {p p' : Program} (h : codeOp op v p = .ok p') :
    Grows p p' 1 ∧ p'.orders.length = p.orders.length + 1 := by
  have gen : ∀ v : PVal, (do
      let (i, p) ← mkVal v p
      Res.ok (asm (mkOrder op i) p) : Res CErr Program) = .ok p' →
      Grows p p' 1 ∧ p'.orders.length = p.orders.length + 1 := by
    intro v h
    obtain ⟨⟨i, q⟩, hq, h⟩ := bind_eq_ok h
    cases h
    obtain ⟨h1, h2⟩ := mkVal_grows hq
    exact ⟨(h1.trans (asm_grows _ _)).mono (by omega), by simp [asm, h2]⟩
  unfold codeOp at h
  split at h
  · cases h; exact ⟨asm_grows _ _, by simp [asm]⟩
  · simp only at h
    split at h
    · split at h
      · cases h; exact ⟨asm_grows _ _, by simp [asm]⟩
      · exact gen _ h
    · exact gen _ h

mutual
theorem codeExpr_grows : ∀ (e : Expr) {p p' : Program}, codeExpr e p = .ok p' → Grows p p' 1
  | .int n, p, p', h => by
    unfold codeExpr at h
    split at h
    · cases h; exact asm_grows _ _
    · exact (codeOp_grows h).1
  | .float f, p, p', h => by unfold codeExpr at h; exact (codeOp_grows h).1
  | .str f, p, p', h => by unfold codeExpr at h; exact (codeOp_grows h).1
  | .name f, p, p', h => by unfold codeExpr at h; exact (codeOp_grows h).1
  | .re f, p, p', h => by unfold codeExpr at h; exact (codeOp_grows h).1
  | .bool b, p, p', h => by unfold codeExpr at h; cases h; exact asm_grows _ _
  | .null, p, p', h => by unfold codeExpr at h; exact (codeOp_grows h).1
  | .current, p, p', h => by unfold codeExpr at h; exact (codeOp_grows h).1
  | .root, p, p', h => by unfold codeExpr at h; exact (codeOp_grows h).1
  | .inner op kids, p, p', h => by
    unfold codeExpr at h
    split at h
    · split at h
      · exact (codeOp_grows h).1
      · cases h
    · obtain ⟨q, hq, h⟩ := bind_eq_ok h
      cases h
      exact ((codeKids_grows kids hq).trans (asm_grows _ _)).mono (by omega)
theorem codeKids_grows : ∀ (es : List Expr) {p p' : Program}, codeKids es p = .ok p' → Grows p p' es.length
  | [], p, p', h => by unfold codeKids at h; cases h; exact ⟨Extends.refl _, by simp, id⟩
  | e :: r, p, p', h => by
    unfold codeKids at h
    obtain ⟨q, hq, h⟩ := bind_eq_ok h
    exact ((codeExpr_grows e hq).trans (codeKids_grows r h)).mono (by simp; omega)
end

theorem codeVal_grows {op : Op} {v : Val} {p p' : Program} (h : codeVal op v p = .ok p') :
    Grows p p' 1 := by
  unfold codeVal at h
  split at h
  · exact codeExpr_grows _ h
  all_goals
    split at h
    · exact (codeOp_grows h).1
    · exact (codeOp_grows h).1

theorem codeArgs_grows : ∀ (vs : List Val) {p p' : Program}, codeArgs vs p = .ok p' →
    Grows p p' vs.length
  | [], p, p', h => by unfold codeArgs at h; cases h; exact ⟨Extends.refl _, by simp, id⟩
  | v :: r, p, p', h => by
    unfold codeArgs at h
    obtain ⟨q, hq, h⟩ := bind_eq_ok h
    exact ((codeVal_grows hq).trans (codeArgs_grows r h)).mono (by simp; omega)

theorem codeStep_grows {s : Step} {p p' : Program} (h : codeStep s p = .ok p') :
    Grows p p' (s.args.length + 1) := by
  unfold codeStep at h
  obtain ⟨q, hq, h⟩ := bind_eq_ok h
  cases h
  exact (codeArgs_grows _ hq).trans (asm_grows _ _)

theorem codeLoop_grows {s : Step} {op : Op} {p p' : Program} (h : codeLoop s op p = .ok p') :
    Grows p p' (s.args.length + 3) := by
  unfold codeLoop at h
  simp only at h
  obtain ⟨q, hq, h⟩ := bind_eq_ok h
  cases h
  have g := ((asm_grows (mkSmall op 0) p).trans (codeStep_grows hq)).trans
    (asm_grows (mkSmall .rep (Int64.ofNat (asm (mkSmall op 0) p).orders.length)) q)
  refine ⟨⟨?_, g.vals⟩, ?_, g.small⟩
  · have := g.orders
    obtain ⟨t, ht⟩ := this
    simp only [patch]
    rw [← ht, List.set_append_right _ _ (Nat.le_refl _)]
    exact List.prefix_append _ _
  · have := g.len
    simp only [patch, List.length_set]
    omega

theorem codePathStep_grows {s : Step} {p p' : Program} (h : codePathStep s p = .ok p') :
    Grows p p' 1 := by
  unfold codePathStep at h
  by_cases hc : (s.op.isLeaf && s.op.hasVal) = true
  · rw [if_pos hc] at h
    cases ha : s.args with
    | nil => rw [ha] at h; cases h
    | cons v r => rw [ha] at h; exact codeVal_grows h
  · rw [if_neg hc] at h
    cases hop : s.op <;> rw [hop] at h <;> first
      | exact (codeLoop_grows h).mono (by omega)
      | exact (codeStep_grows h).mono (by omega)

theorem codePath_grows : ∀ (path : Path) {p p' : Program}, codePath path p = .ok p' →
    Grows p p' path.length
  | [], p, p', h => by unfold codePath at h; cases h; exact ⟨Extends.refl _, by simp, id⟩
  | v :: r, p, p', h => by
    unfold codePath at h
    obtain ⟨q, hq, h⟩ := bind_eq_ok h
    exact ((codePathStep_grows hq).trans (codePath_grows r h)).mono (by simp; omega)

end JP
