import Verif.Proof.ParseWF
/-! The size of compiled programs. -/
set_option linter.unusedSimpArgs false
namespace JP

/-- `p'` is `p` with `k` more orders and at most `k` more constants. -/
structure Sized (p p' : Program) (k : Nat) : Prop where
  orders : p'.orders.length = p.orders.length + k
  vals : p'.vals.length ≤ p.vals.length + k

/-- A part of the compiler adds `k` orders, or reports that there are too many constants, which it does
only if there are. -/
def Sz (r : Res CErr Program) (p : Program) (k : Nat) : Prop :=
  match r with
  | .ok p' => Sized p p' k
  | .err _ => indexTop < p.vals.length + k
  | .panic _ => False
  | .stuck => False

theorem Sz.bind {r : Res CErr Program} {f : Program → Res CErr Program} {p : Program} {j k : Nat}
    (hr : Sz r p j) (hf : ∀ q, Sz (f q) q k) : Sz (r >>= f) p (j + k) := by
  cases r with
  | ok q =>
    have h := hf q
    show Sz (f q) p (j + k)
    have a := hr.orders
    have b := hr.vals
    unfold Sz at h ⊢
    split <;> rename_i e <;> rw [e] at h
    · exact ⟨by have := h.orders; omega, by have := h.vals; omega⟩
    · simp only at h; omega
    · exact h
    · exact h
  | err e => show indexTop < _; have : indexTop < _ := hr; omega
  | panic m => exact hr.elim
  | stuck => exact hr.elim

theorem Sz.asm (o : Order) (p : Program) : Sz (.ok (asm o p)) p 1 :=
  ⟨by simp [JP.asm], by simp [JP.asm]⟩

theorem codeOp_sz (op : Op) (v : Option PVal) (p : Program) : Sz (codeOp op v p) p 1 := by
  have gen : ∀ v : PVal, Sz (do
      let (i, p) ← mkVal v p
      Res.ok (asm (mkOrder op i) p) : Res CErr Program) p 1 := by
    intro v
    unfold mkVal
    split
    · exact Sz.asm _ _
    · dsimp only
      split
      · next h => show indexTop < _; omega
      · exact ⟨by simp [JP.asm], by simp [JP.asm]⟩
  unfold codeOp
  split
  · exact Sz.asm _ _
  · dsimp only
    split
    · split
      · exact Sz.asm _ _
      · exact gen _
    · exact gen _

mutual
theorem codeExpr_sz : ∀ (e : Expr) (_ : e.WF) (p : Program), Sz (codeExpr e p) p e.size
  | .int n, _, p => by
    unfold codeExpr; split
    · exact Sz.asm _ _
    · exact codeOp_sz _ _ _
  | .float f, _, p => by unfold codeExpr; exact codeOp_sz _ _ _
  | .str f, _, p => by unfold codeExpr; exact codeOp_sz _ _ _
  | .name f, _, p => by unfold codeExpr; exact codeOp_sz _ _ _
  | .re f, _, p => by unfold codeExpr; exact codeOp_sz _ _ _
  | .bool b, _, p => by unfold codeExpr; exact Sz.asm _ _
  | .null, _, p => by unfold codeExpr; exact codeOp_sz _ _ _
  | .current, _, p => by unfold codeExpr; exact codeOp_sz _ _ _
  | .root, _, p => by unfold codeExpr; exact codeOp_sz _ _ _
  | .inner op kids, h, p => by
    unfold codeExpr
    rw [if_neg (by simp [notLeaf_of_wf h]), Expr.size, Nat.add_comm]
    exact Sz.bind (codeKids_sz kids (kids_of_wf h) p) (fun q => Sz.asm _ _)
theorem codeKids_sz : ∀ (es : List Expr) (_ : Exprs.WF es) (p : Program),
    Sz (codeKids es p) p (Exprs.size es)
  | [], _, p => by unfold codeKids; exact ⟨rfl, Nat.le_refl _⟩
  | e :: es, h, p => by
    unfold codeKids
    cases h with
    | cons _ _ h1 h2 => exact Sz.bind (codeExpr_sz e h1 p) (fun q => codeKids_sz es h2 q)
end

theorem codeVal_sz (op : Op) (v : Val) (h : v.WF) (p : Program) : Sz (codeVal op v p) p v.size := by
  unfold codeVal
  split
  · exact codeExpr_sz _ h p
  all_goals
    split
    · exact codeOp_sz _ _ _
    · exact codeOp_sz _ _ _

theorem codeArgs_sz : ∀ (vs : List Val) (_ : ∀ v ∈ vs, v.WF) (p : Program),
    Sz (codeArgs vs p) p (Vals.size vs)
  | [], _, p => by unfold codeArgs; exact ⟨rfl, Nat.le_refl _⟩
  | v :: vs, h, p => by
    unfold codeArgs
    exact Sz.bind (codeVal_sz _ v (h v (by simp)) p) (fun q => codeArgs_sz vs (fun w hw => h w (by simp [hw])) q)

theorem codeStep_sz (s : Step) (h : s.WF) (p : Program) :
    Sz (codeStep s p) p (Vals.size s.args + 1) :=
  Sz.bind (codeArgs_sz s.args h.1 p) (fun _ => Sz.asm _ _)

theorem codeLoop_sz (s : Step) (h : s.WF) (op : Op) (p : Program) :
    Sz (codeLoop s op p) p (Vals.size s.args + 3) := by
  unfold codeLoop
  dsimp only
  have h1 := Sz.bind (k := 1) (codeStep_sz s h (asm (mkSmall op 0) p)) (f := fun q =>
    Res.ok (patch p.orders.length (mkSmall op (Int64.ofNat (asm (mkSmall .rep
      (Int64.ofNat (asm (mkSmall op 0) p).orders.length)) q).orders.length))
      (asm (mkSmall .rep (Int64.ofNat (asm (mkSmall op 0) p).orders.length)) q)))
    (fun q => ⟨by simp [JP.asm, patch], by simp [JP.asm, patch]⟩)
  have h2 : Sz (.ok (asm (mkSmall op 0) p)) p 1 := Sz.asm _ _
  unfold Sz at h1 h2 ⊢
  split <;> rename_i e <;> rw [e] at h1
  · exact ⟨by have := h1.orders; have := h2.orders; omega, by have := h1.vals; have := h2.vals; omega⟩
  · simp only [JP.asm] at h1; omega
  · exact h1
  · exact h1

theorem codePathStep_sz (s : Step) (h : s.WF) (p : Program) : Sz (codePathStep s p) p s.size := by
  unfold codePathStep Step.size
  have hnl : (s.op.isLeaf && s.op.hasVal) = false := by
    have := h.2
    cases hop : s.op <;> rw [hop] at this <;> first | rfl | exact this.elim
  rw [if_neg (by simp [hnl])]
  cases s.op <;> first | exact codeLoop_sz s h _ p | exact codeStep_sz s h p

theorem codePath_sz : ∀ (path : Path) (_ : path.WF) (p : Program), Sz (codePath path p) p (Path.size path)
  | [], _, p => by unfold codePath; exact ⟨rfl, Nat.le_refl _⟩
  | s :: r, h, p => by
    unfold codePath
    exact Sz.bind (codePathStep_sz s (h s (by simp)) p) (fun q => codePath_sz r (fun w hw => h w (by simp [hw])) q)

/-- The program of a path has exactly as many orders as the path's size; the compiler fails only
because of too many constants. -/
theorem compile_sz (path : Path) (h : path.WF) :
    (∃ prog, compile path = .ok prog ∧ prog.orders.length = Path.size path) ∨
    ((∃ e, compile path = .err e) ∧ indexTop < Path.size path) := by
  have := codePath_sz path h ⟨[], []⟩
  unfold Sz at this
  unfold compile
  split at this <;> rename_i e <;> rw [e]
  · exact .inl ⟨_, rfl, by have := this.orders; simpa using this⟩
  · exact .inr ⟨⟨_, rfl⟩, by simpa using this⟩
  · exact this.elim
  · exact this.elim

end JP
