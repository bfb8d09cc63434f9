import Verif.Proof.ParseSound
/-! Every expression of the grammar is accepted, with the tree of its derivation. -/
namespace JP
open Spec

variable {env : Env}

/-- With enough fuel, the result is `x`. -/
def Ev {α : Type} (m : Nat → P α) (s : LState) (x : α × LState) : Prop := ∃ f0, ∀ f, f0 ≤ f → m f s = .ok x

theorem Ev.bind {α β : Type} {m : Nat → P α} {k : Nat → α → P β} {s : LState} {a : α} {s1 : LState} {x : β × LState}
    (h : Ev m s (a, s1)) (hk : Ev (fun f => k f a) s1 x) : Ev (fun f => m f >>= k f) s x := by
  obtain ⟨f1, h1⟩ := h
  obtain ⟨f2, h2⟩ := hk
  refine ⟨f1 + f2, fun f hf => ?_⟩
  show (m f >>= k f) s = _
  rw [bind_ok (h1 f (by omega))]
  exact h2 f (by omega)

theorem Ev.step {α : Type} {m m' : Nat → P α} {s s' : LState} {x : α × LState} (h : Ev m' s' x)
    (he : ∀ f, m (f + 1) s = m' f s') : Ev m s x := by
  obtain ⟨f1, h1⟩ := h
  refine ⟨f1 + 1, fun f hf => ?_⟩
  obtain ⟨g, rfl⟩ : ∃ g, f = g + 1 := ⟨f - 1, by omega⟩
  rw [he]
  exact h1 g (by omega)

theorem Ev.const {α : Type} {m : P α} {s : LState} {x : α × LState} (h : m s = .ok x) : Ev (fun _ => m) s x :=
  ⟨0, fun _ _ => h⟩

/-- A token that ends every expression. -/
def Stops (n : Nat) (lx : Lexeme) : Prop := NotPost lx ∧ OpBelow n lx

theorem Reads.expr_inv {lx : Lexeme} {r r' : Rd} (h : Reads env (.expr lx) r r') : lexExpr env r = some (lx, r') := by
  cases h with | expr h => exact h

theorem Lexes.cons_inv {t : Token} {ts : List Token} {r r2 : Rd} (h : Lexes env r (t :: ts) r2) :
    ∃ r1, Reads env t r r1 ∧ Lexes env r1 ts r2 := by
  cases h with | cons h1 h2 => exact ⟨_, h1, h2⟩

theorem Lexes.one_inv {t : Token} {r r2 : Rd} (h : Lexes env r [t] r2) : Reads env t r r2 := by
  obtain ⟨r1, h1, h2⟩ := h.cons_inv
  cases h2; exact h1

theorem Lexes.nil_inv {r r2 : Rd} (h : Lexes env r [] r2) : r2 = r := by cases h; rfl

theorem op_notPost {lx : Lexeme} {op : Op} {k : Nat} (h : OpTok lx op k) : NotPost lx := by
  cases h <;> exact ⟨by simp [Lexeme.plain], by simp [Lexeme.plain], by simp [Lexeme.plain]⟩

theorem stop_paren (n : Nat) : Stops n (.plain (.ch (c! ')'))) :=
  ⟨⟨by simp [Lexeme.plain], by simp [Lexeme.plain], by simp [Lexeme.plain]⟩, fun _ _ h => by cases h⟩
theorem stop_bracket (n : Nat) : Stops n (.plain (.ch (c! ']'))) :=
  ⟨⟨by simp [Lexeme.plain], by simp [Lexeme.plain], by simp [Lexeme.plain]⟩, fun _ _ h => by cases h⟩
theorem stop_comma (n : Nat) : Stops n (.plain (.ch (c! ','))) :=
  ⟨⟨by simp [Lexeme.plain], by simp [Lexeme.plain], by simp [Lexeme.plain]⟩, fun _ _ h => by cases h⟩
theorem stop_eof (n : Nat) : Stops n (.plain .eof) :=
  ⟨⟨by simp [Lexeme.plain], by simp [Lexeme.plain], by simp [Lexeme.plain]⟩, fun _ _ h => by cases h⟩

/-- The loop of a primary ends at a token that does not continue it. -/
theorem primaryLoop_done {s : LState} {r r' : Rd} {lx : Lexeme} {e : Expr} (hs : AtX env s r)
    (hl : lexExpr env r = some (lx, r')) (hn : NotPost lx) :
    Ev (fun f => pPrimaryLoop env f e) s (e, ⟨r', some lx⟩) := by
  refine ⟨1, fun f hf => ?_⟩
  obtain ⟨g, rfl⟩ : ∃ g, f = g + 1 := ⟨f - 1, by omega⟩
  show pPrimaryLoop env (g + 1) e s = _
  unfold pPrimaryLoop
  rw [bind_ok (lookExpr_at hs hl), if_neg hn.1, if_neg hn.2.1, if_neg hn.2.2]
  rfl

/-- The loop of an expression ends at a token that is not an operator of its level. -/
theorem exprLoop_done {s : LState} {r r' : Rd} {lx : Lexeme} {e : Expr} {n : Nat} (hs : AtX env s r ∨ AtO env s r)
    (hl : lexExpr env r = some (lx, r')) (hn : OpBelow n lx) :
    Ev (fun f => pExprLoop env f n e) s (e, ⟨r', some (opLexeme lx)⟩) := by
  refine ⟨1, fun f hf => ?_⟩
  obtain ⟨g, rfl⟩ : ∃ g, f = g + 1 := ⟨f - 1, by omega⟩
  show pExprLoop env (g + 1) n e s = _
  unfold pExprLoop
  rw [bind_ok (lookOp_at hs hl), if_neg]
  · rfl
  · intro h
    obtain ⟨op, k, ho, hk⟩ := (tok2op_table (lexExpr_shape hl)).1 h
    have := hn op k ho
    omega

mutual
theorem GExpr_first {v : Bytes → Bool} : ∀ {n : Nat} {ts : List Token} {e : Expr}, GExpr v n ts e →
    ∃ lx us, ts = .expr lx :: us ∧ lx.tok ≠ .ch (c! ')') ∧ lx.tok ≠ .ch (c! ']')
  | _, _, _, .unary _ _ _ h => GUnary_first h
  | _, _, _, .binary _ _ _ _ _ _ _ _ _ _ h _ => by
    obtain ⟨t, us, rfl, h'⟩ := GExpr_first h; exact ⟨t, _, rfl, h'⟩
theorem GUnary_first {v : Bytes → Bool} : ∀ {ts : List Token} {e : Expr}, GUnary v ts e →
    ∃ lx us, ts = .expr lx :: us ∧ lx.tok ≠ .ch (c! ')') ∧ lx.tok ≠ .ch (c! ']')
  | _, _, .primary _ _ h => GPrimary_first h
  | _, _, .neg _ _ _ => ⟨_, _, rfl, by simp [Lexeme.plain], by simp [Lexeme.plain]⟩
  | _, _, .not _ _ _ => ⟨_, _, rfl, by simp [Lexeme.plain], by simp [Lexeme.plain]⟩
theorem GPrimary_first {v : Bytes → Bool} : ∀ {ts : List Token} {e : Expr}, GPrimary v ts e →
    ∃ lx us, ts = .expr lx :: us ∧ lx.tok ≠ .ch (c! ')') ∧ lx.tok ≠ .ch (c! ']')
  | _, _, .atom _ _ h => GAtom_first h
  | _, _, .call _ _ _ _ h _ => by obtain ⟨t, us, rfl, h'⟩ := GPrimary_first h; exact ⟨t, _, rfl, h'⟩
  | _, _, .index _ _ _ _ h _ => by obtain ⟨t, us, rfl, h'⟩ := GPrimary_first h; exact ⟨t, _, rfl, h'⟩
  | _, _, .dot _ _ _ h => by obtain ⟨t, us, rfl, h'⟩ := GPrimary_first h; exact ⟨t, _, rfl, h'⟩
theorem GAtom_first {v : Bytes → Bool} : ∀ {ts : List Token} {e : Expr}, GAtom v ts e →
    ∃ lx us, ts = .expr lx :: us ∧ lx.tok ≠ .ch (c! ')') ∧ lx.tok ≠ .ch (c! ']')
  | _, _, .tru => ⟨_, _, rfl, by simp [Lexeme.plain], by simp [Lexeme.plain]⟩
  | _, _, .fls => ⟨_, _, rfl, by simp [Lexeme.plain], by simp [Lexeme.plain]⟩
  | _, _, .nul => ⟨_, _, rfl, by simp [Lexeme.plain], by simp [Lexeme.plain]⟩
  | _, _, .name s _ _ _ => ⟨_, _, rfl, by simp [Lexeme.plain], by simp [Lexeme.plain]⟩
  | _, _, .int _ => ⟨_, _, rfl, by simp [Lexeme.plain], by simp [Lexeme.plain]⟩
  | _, _, .real _ => ⟨_, _, rfl, by simp [Lexeme.plain], by simp [Lexeme.plain]⟩
  | _, _, .str _ => ⟨_, _, rfl, by simp [Lexeme.plain], by simp [Lexeme.plain]⟩
  | _, _, .re _ _ => ⟨_, _, rfl, by simp [Lexeme.plain], by simp [Lexeme.plain]⟩
  | _, _, .current => ⟨_, _, rfl, by simp [Lexeme.plain], by simp [Lexeme.plain]⟩
  | _, _, .root => ⟨_, _, rfl, by simp [Lexeme.plain], by simp [Lexeme.plain]⟩
  | _, _, .paren _ _ _ => ⟨_, _, rfl, by simp [Lexeme.plain], by simp [Lexeme.plain]⟩
  | _, _, .array _ _ _ => ⟨_, _, rfl, by simp [Lexeme.plain], by simp [Lexeme.plain]⟩
end

mutual
theorem pExpr_complete : ∀ {k : Nat} {ts : List Token} {e : Expr}, GExpr env.reValid k ts e →
    ∀ (q : Nat) {s : LState} {r r1 r2 : Rd} {lx : Lexeme}, q ≤ k → AtX env s r → Lexes env r ts r1 →
    lexExpr env r1 = some (lx, r2) → NotPost lx → OpBelow (k + 1) lx →
    ∃ s1, (AtX env s1 r1 ∨ AtO env s1 r1) ∧
      ∀ x, Ev (fun f => pExprLoop env f q e) s1 x → Ev (fun f => pExpr env f q) s x
  | k, ts, e, .unary _ _ _ h => by
    intro q s r r1 r2 lx _ hs hlx hl hn _
    refine ⟨_, .inl (.inr ⟨lx, r2, hl, rfl⟩), fun x hx => ?_⟩
    refine Ev.step (Ev.bind (pPrimary_complete h hs hlx hl hn) hx) fun f => ?_
    show pExpr env (f + 1) q s = _
    unfold pExpr
    rfl
  | n, _, _, .binary _ ts₁ a lx' op k ts₂ b hk ho ha hb => by
    intro q s r r1 r2 lx hq hs hlx hl hn hob
    obtain ⟨ra, hra, hlx2⟩ := hlx.split
    obtain ⟨rb, hrb, hlx3⟩ := hlx2.cons_inv
    have hlx' := hrb.expr_inv
    obtain ⟨sa, hsa, hca⟩ := pExpr_complete ha q (Nat.le_trans hq hk) hs hra hlx' (op_notPost ho)
      (fun op2 k2 h2 => by have := (ho.unique h2).2; omega)
    obtain ⟨sb, hsb, hcb⟩ := pExpr_complete hb (k + 1) (Nat.le_refl _) (.inl rfl : AtX env ⟨rb, none⟩ rb) hlx3 hl hn
      (fun op2 k2 h2 => by have := hob op2 k2 h2; omega)
    have hb' := hcb _ (exprLoop_done (n := k + 1) (e := b) hsb hl (fun op2 k2 h2 => by have := hob op2 k2 h2; omega))
    refine ⟨⟨r2, some (opLexeme lx)⟩, .inr ⟨lx, r2, hl, rfl⟩, fun x hx => hca x ?_⟩
    obtain ⟨o1, o2, o3, o4⟩ := OpTok.tok2op ho
    have hk1 : op.precedence + op.associativity = ((k + 1 : Nat) : Int) := by rw [o2, o3]; rfl
    refine Ev.step (Ev.bind (k := fun f right => pExprLoop env f q (.inner op [a, right])) hb' hx) fun f => ?_
    show pExprLoop env (f + 1) q a sa = _
    conv => lhs; unfold pExprLoop
    have hO : AtO env ⟨rb, some (opLexeme lx')⟩ ra := ⟨lx', rb, hlx', rfl⟩
    have hp : (q : Int) ≤ (tok2op (opLexeme lx').tok).precedence :=
      (tok2op_table (lexExpr_shape hlx')).2 ⟨op, k, ho, Nat.le_trans hq hk⟩
    rw [bind_ok (lookOp_at hsa hlx'), if_pos hp, bind_ok (lexOp_at (.inr hO) hlx'), o4]
    dsimp only
    rw [o1, hk1]
theorem pPrimary_complete : ∀ {ts : List Token} {e : Expr}, GUnary env.reValid ts e →
    ∀ {s : LState} {r r1 r2 : Rd} {lx : Lexeme}, AtX env s r → Lexes env r ts r1 →
    lexExpr env r1 = some (lx, r2) → NotPost lx → Ev (fun f => pPrimary env f) s (e, ⟨r2, some lx⟩)
  | ts, e, .primary _ _ h => by
    rename_i s r r1 r2 lx
    intro hs hlx hl hn
    exact pPrimary_complete' h hs hlx _ (primaryLoop_done (.inl rfl) hl hn)
  | _, _, .neg ts e h => by
    rename_i s r r1 r2 lx
    intro hs hlx hl hn
    obtain ⟨ra, hra, hlx2⟩ := hlx.cons_inv
    have h1 := pPrimary_complete h (.inl rfl : AtX env ⟨ra, none⟩ ra) hlx2 hl hn
    have h2 : Ev (fun f => pPrimary1 env f) s (.inner .neg [e], ⟨r2, some lx⟩) := by
      refine Ev.step (Ev.bind (k := fun _ arg => pure (.inner .neg [arg])) h1 (Ev.const rfl)) fun f => ?_
      show pPrimary1 env (f + 1) s = _
      conv => lhs; unfold pPrimary1
      rw [bind_ok (lexExprP_at hs hra.expr_inv)]
      rfl
    refine Ev.step (Ev.bind h2 (primaryLoop_done (.inr ⟨lx, r2, hl, rfl⟩) hl hn)) fun f => ?_
    show pPrimary env (f + 1) s = _
    conv => lhs; unfold pPrimary
  | _, _, .not ts e h => by
    rename_i s r r1 r2 lx
    intro hs hlx hl hn
    obtain ⟨ra, hra, hlx2⟩ := hlx.cons_inv
    have h1 := pPrimary_complete h (.inl rfl : AtX env ⟨ra, none⟩ ra) hlx2 hl hn
    have h2 : Ev (fun f => pPrimary1 env f) s (.inner .not [e], ⟨r2, some lx⟩) := by
      refine Ev.step (Ev.bind (k := fun _ arg => pure (.inner .not [arg])) h1 (Ev.const rfl)) fun f => ?_
      show pPrimary1 env (f + 1) s = _
      conv => lhs; unfold pPrimary1
      rw [bind_ok (lexExprP_at hs hra.expr_inv)]
      rfl
    refine Ev.step (Ev.bind h2 (primaryLoop_done (.inr ⟨lx, r2, hl, rfl⟩) hl hn)) fun f => ?_
    show pPrimary env (f + 1) s = _
    conv => lhs; unfold pPrimary
theorem pPrimary_complete' : ∀ {ts : List Token} {e : Expr}, GPrimary env.reValid ts e →
    ∀ {s : LState} {r r1 : Rd}, AtX env s r → Lexes env r ts r1 →
    ∀ x, Ev (fun f => pPrimaryLoop env f e) ⟨r1, none⟩ x → Ev (fun f => pPrimary env f) s x
  | ts, e, .atom _ _ h => by
    rename_i s r r1
    intro hs hlx x hx
    refine Ev.step (Ev.bind (pPrimary1_complete h hs hlx) hx) fun f => ?_
    show pPrimary env (f + 1) s = _
    conv => lhs; unfold pPrimary
  | _, _, .call ts fn us es h1 h2 => by
    rename_i s r r1
    intro hs hlx x hx
    obtain ⟨ra, hra, hlx2⟩ := hlx.split
    obtain ⟨rb, hrb, hlx3⟩ := hlx2.cons_inv
    refine pPrimary_complete' h1 hs hra x ?_
    refine Ev.step (Ev.bind (pApplication_complete h2 .call (c! ')') [.name fn] (.inl rfl) (.inl rfl) hlx3) hx) fun f => ?_
    show pPrimaryLoop env (f + 1) _ _ = _
    conv => lhs; unfold pPrimaryLoop
    have hl := hrb.expr_inv
    rw [bind_ok (lookExpr_at (.inl rfl) hl), if_pos (by rfl), if_neg (by simp [Expr.opcode]),
      bind_ok (lexExprP_at (.inr ⟨_, _, hl, rfl⟩) hl)]
  | _, _, .index ts e us i h1 h2 => by
    rename_i s r r1
    intro hs hlx x hx
    obtain ⟨ra, hra, hlx2⟩ := hlx.split
    obtain ⟨rb, hrb, hlx3⟩ := hlx2.cons_inv
    obtain ⟨rc, hrc, hlx4⟩ := hlx3.split
    have hrd := hlx4.one_inv
    have hl := hrb.expr_inv
    have hl4 := hrd.expr_inv
    refine pPrimary_complete' h1 hs hra x ?_
    have hst := stop_bracket 0
    obtain ⟨si, hsi, hci⟩ := pExpr_complete h2 0 (Nat.le_refl _) (.inl rfl : AtX env ⟨rb, none⟩ rb) hrc hl4 hst.1
      (stop_bracket 1).2
    have hi := hci _ (exprLoop_done (n := 0) hsi hl4 hst.2)
    have hO : AtO env ⟨r1, some (opLexeme (.plain (.ch (c! ']'))))⟩ rc := ⟨_, _, hl4, rfl⟩
    refine Ev.step (Ev.bind (k := fun f i => do
        expect (lexExprP env) (.ch (c! ']'))
        pPrimaryLoop env f (.inner .index [e, i])) hi
      (Ev.bind (k := fun f _ => pPrimaryLoop env f (.inner .index [e, i]))
        (Ev.const (expectX_of (.inr hO) hrd)) hx)) fun f => ?_
    show pPrimaryLoop env (f + 1) _ _ = _
    conv => lhs; unfold pPrimaryLoop
    rw [bind_ok (lookExpr_at (.inl rfl) hl), if_neg (by simp [Lexeme.plain]), if_pos (by rfl),
      bind_ok (lexExprP_at (.inr ⟨_, _, hl, rfl⟩) hl)]
    rfl
  | _, _, .dot ts e n h1 => by
    rename_i s r r1
    intro hs hlx x hx
    obtain ⟨ra, hra, hlx2⟩ := hlx.split
    obtain ⟨rb, hrb, hlx3⟩ := hlx2.cons_inv
    have hrd := hlx3.one_inv
    have hl := hrb.expr_inv
    have hl4 := hrd.expr_inv
    refine pPrimary_complete' h1 hs hra x ?_
    refine Ev.step hx fun f => ?_
    show pPrimaryLoop env (f + 1) _ _ = _
    conv => lhs; unfold pPrimaryLoop
    rw [bind_ok (lookExpr_at (.inl rfl) hl), if_neg (by simp [Lexeme.plain]), if_neg (by simp [Lexeme.plain]), if_pos (by rfl),
      bind_ok (lexExprP_at (.inr ⟨_, _, hl, rfl⟩) hl), bind_ok (lexExprP_at (.inl rfl) hl4)]
    rfl
theorem pPrimary1_complete : ∀ {ts : List Token} {e : Expr}, GAtom env.reValid ts e →
    ∀ {s : LState} {r r1 : Rd}, AtX env s r → Lexes env r ts r1 → Ev (fun f => pPrimary1 env f) s (e, ⟨r1, none⟩)
  | _, _, .tru => by
    rename_i s r r1
    intro hs hlx
    refine Ev.step (Ev.const (m := pure _) rfl) fun f => ?_
    show pPrimary1 env (f + 1) s = _
    conv => lhs; unfold pPrimary1
    rw [bind_ok (lexExprP_at hs hlx.one_inv.expr_inv)]
    rfl
  | _, _, .fls => by
    rename_i s r r1
    intro hs hlx
    refine Ev.step (Ev.const (m := pure _) rfl) fun f => ?_
    show pPrimary1 env (f + 1) s = _
    conv => lhs; unfold pPrimary1
    rw [bind_ok (lexExprP_at hs hlx.one_inv.expr_inv)]
    rfl
  | _, _, .nul => by
    rename_i s r r1
    intro hs hlx
    refine Ev.step (Ev.const (m := pure _) rfl) fun f => ?_
    show pPrimary1 env (f + 1) s = _
    conv => lhs; unfold pPrimary1
    rw [bind_ok (lexExprP_at hs hlx.one_inv.expr_inv)]
    rfl
  | _, _, .name n h1 h2 h3 => by
    rename_i s r r1
    intro hs hlx
    refine Ev.step (Ev.const (m := pure _) rfl) fun f => ?_
    show pPrimary1 env (f + 1) s = _
    conv => lhs; unfold pPrimary1
    rw [bind_ok (lexExprP_at hs hlx.one_inv.expr_inv)]
    show (if n = b! "true" then pure (.bool true)
        else if n = b! "false" then pure (.bool false)
        else if n = b! "null" then pure .null
        else pure (.name n) : P Expr) ⟨r1, none⟩ = _
    rw [if_neg h1, if_neg h2, if_neg h3]
  | _, _, .int n => by
    rename_i s r r1
    intro hs hlx
    refine Ev.step (Ev.const (m := pure _) rfl) fun f => ?_
    show pPrimary1 env (f + 1) s = _
    conv => lhs; unfold pPrimary1
    rw [bind_ok (lexExprP_at hs hlx.one_inv.expr_inv)]
    rfl
  | _, _, .real n => by
    rename_i s r r1
    intro hs hlx
    refine Ev.step (Ev.const (m := pure _) rfl) fun f => ?_
    show pPrimary1 env (f + 1) s = _
    conv => lhs; unfold pPrimary1
    rw [bind_ok (lexExprP_at hs hlx.one_inv.expr_inv)]
    rfl
  | _, _, .str n => by
    rename_i s r r1
    intro hs hlx
    refine Ev.step (Ev.const (m := pure _) rfl) fun f => ?_
    show pPrimary1 env (f + 1) s = _
    conv => lhs; unfold pPrimary1
    rw [bind_ok (lexExprP_at hs hlx.one_inv.expr_inv)]
    rfl
  | _, _, .re n hv => by
    rename_i s r r1
    intro hs hlx
    obtain ⟨ra, hra, hlx2⟩ := hlx.cons_inv
    have hre : lexRegexp (c! '/') ra = (⟨.re, .str n, none⟩, r1) := by
      cases hlx2.one_inv with | regexp h => exact h
    refine Ev.step (Ev.const (m := pure _) rfl) fun f => ?_
    show pPrimary1 env (f + 1) s = _
    conv => lhs; unfold pPrimary1
    rw [bind_ok (lexExprP_at hs hra.expr_inv)]
    dsimp only [Lexeme.plain]
    rw [if_neg (by decide), if_neg (by decide), if_pos (by decide), bind_ok (m := P.offset) rfl]
    rw [bind_ok (a := ⟨.re, .str n, none⟩) (s1 := ⟨r1, none⟩) (by simp only [hre])]
    show (if env.reValid n then pure (.re n) else P.fail (.badRegexp n ra.offset) : P Expr) ⟨r1, none⟩ = _
    rw [if_pos hv]
  | _, _, .current => by
    rename_i s r r1
    intro hs hlx
    refine Ev.step (Ev.const (m := pure _) rfl) fun f => ?_
    show pPrimary1 env (f + 1) s = _
    conv => lhs; unfold pPrimary1
    rw [bind_ok (lexExprP_at hs hlx.one_inv.expr_inv)]
    rfl
  | _, _, .root => by
    rename_i s r r1
    intro hs hlx
    refine Ev.step (Ev.const (m := pure _) rfl) fun f => ?_
    show pPrimary1 env (f + 1) s = _
    conv => lhs; unfold pPrimary1
    rw [bind_ok (lexExprP_at hs hlx.one_inv.expr_inv)]
    rfl
  | _, _, .paren ts e h => by
    rename_i s r r1
    intro hs hlx
    obtain ⟨ra, hra, hlx2⟩ := hlx.cons_inv
    obtain ⟨rb, hrb, hlx3⟩ := hlx2.split
    have hrd := hlx3.one_inv
    have hl := hrd.expr_inv
    have hst := stop_paren 0
    obtain ⟨si, hsi, hci⟩ := pExpr_complete h 0 (Nat.le_refl _) (.inl rfl : AtX env ⟨ra, none⟩ ra) hrb hl hst.1
      (stop_paren 1).2
    have hi := hci _ (exprLoop_done (n := 0) hsi hl hst.2)
    have hO : AtO env ⟨r1, some (opLexeme (.plain (.ch (c! ')'))))⟩ rb := ⟨_, _, hl, rfl⟩
    refine Ev.step (Ev.bind (k := fun _ e => do expect (lexExprP env) (.ch (c! ')')); pure e) hi
      (Ev.bind (k := fun _ _ => pure e) (Ev.const (expectX_of (.inr hO) hrd)) (Ev.const rfl))) fun f => ?_
    show pPrimary1 env (f + 1) s = _
    conv => lhs; unfold pPrimary1
    rw [bind_ok (lexExprP_at hs hra.expr_inv)]
    rfl
  | _, _, .array ts es h => by
    rename_i s r r1
    intro hs hlx
    obtain ⟨ra, hra, hlx2⟩ := hlx.cons_inv
    refine Ev.step (pApplication_complete h .array (c! ']') [] (.inr rfl) (.inl rfl) hlx2) fun f => ?_
    show pPrimary1 env (f + 1) s = _
    conv => lhs; unfold pPrimary1
    rw [bind_ok (lexExprP_at hs hra.expr_inv)]
    rfl
theorem pApplication_complete : ∀ {ts : List Token} {es : List Expr}, GList env.reValid ts es →
    ∀ (op : Op) (c : UInt8) (args : List Expr) {s : LState} {r r1 : Rd}, c = c! ')' ∨ c = c! ']' → AtX env s r →
    Lexes env r (ts ++ [.x c]) r1 →
    Ev (fun f => pApplication env f op (.ch c) args) s (.inner op (args ++ es), ⟨r1, none⟩)
  | _, _, .nil => by
    intro op c args s r r1 _ hs hlx
    have hrd := hlx.one_inv
    have hl := hrd.expr_inv
    refine Ev.step (Ev.const (m := pure _) rfl) fun f => ?_
    show pApplication env (f + 1) _ _ _ s = _
    conv => lhs; unfold pApplication
    rw [bind_ok (lookExpr_at hs hl)]
    dsimp only
    rw [if_neg (by simp [Lexeme.plain]), bind_ok (m := pure args) rfl,
      bind_ok (expectX_of (.inl (.inr ⟨_, _, hl, rfl⟩)) hrd), List.append_nil]
  | _, _, .some ts es h => by
    intro op c args s r r1 hc hs hlx
    obtain ⟨ra, hra, hlx2⟩ := hlx.split
    have hrd := hlx2.one_inv
    have hl := hrd.expr_inv
    have hst : Stops 0 (.plain (.ch c)) := by
      rcases hc with rfl | rfl
      · exact stop_paren 0
      · exact stop_bracket 0
    have hfst : ∃ t us, ts = .expr t :: us ∧ t.tok ≠ .ch c := by
      have : ∃ lx us, ts = .expr lx :: us ∧ lx.tok ≠ .ch (c! ')') ∧ lx.tok ≠ .ch (c! ']') := by
        cases h with
        | one _ e h => exact GExpr_first h
        | cons ts' e us es h _ => obtain ⟨t, us, rfl, h'⟩ := GExpr_first h; exact ⟨t, _, rfl, h'⟩
      obtain ⟨t, us, h1, h2, h3⟩ := this
      refine ⟨t, us, h1, ?_⟩
      rcases hc with rfl | rfl
      · exact h2
      · exact h3
    obtain ⟨lx1, r', hl1⟩ := lexExpr_some env r
    have hne : lx1.tok ≠ .ch c := by
      intro ht
      obtain ⟨t, us, rfl, hne⟩ := hfst
      obtain ⟨rb, hrb, _⟩ := hra.cons_inv
      have h := hrb.expr_inv
      rw [hl1] at h
      cases h
      exact hne ht
    have hO : AtO env ⟨r1, some (opLexeme (.plain (.ch c)))⟩ ra := ⟨_, _, hl, rfl⟩
    refine Ev.step (Ev.bind (k := fun _ args => do expect (lexExprP env) (.ch c); pure (.inner op args))
      (pExprList_complete h args (.inr ⟨lx1, r', hl1, rfl⟩ : AtX env ⟨r', some lx1⟩ r) hra hl hst
        (by rcases hc with rfl | rfl <;> simp [Lexeme.plain]))
      (Ev.bind (k := fun _ _ => pure _) (Ev.const (expectX_of (.inr hO) hrd)) (Ev.const rfl))) fun f => ?_
    show pApplication env (f + 1) _ _ _ s = _
    conv => lhs; unfold pApplication
    rw [bind_ok (lookExpr_at hs hl1)]
    dsimp only
    rw [if_pos hne]
theorem pExprList_complete : ∀ {ts : List Token} {es : List Expr}, GList1 env.reValid ts es →
    ∀ (list : List Expr) {s : LState} {r r1 r2 : Rd} {lx : Lexeme}, AtX env s r → Lexes env r ts r1 →
    lexExpr env r1 = some (lx, r2) → Stops 0 lx → lx.tok ≠ .ch (c! ',') →
    Ev (fun f => pExprList env f list) s (list ++ es, ⟨r2, some (opLexeme lx)⟩)
  | _, _, .one ts e h => by
    intro list s r r1 r2 lx hs hlx hl hst hne
    obtain ⟨si, hsi, hci⟩ := pExpr_complete h 0 (Nat.le_refl _) hs hlx hl hst.1
      (fun op k h => by have := hst.2 op k h; omega)
    have hi := hci _ (exprLoop_done (n := 0) hsi hl hst.2)
    have hO : AtO env ⟨r2, some (opLexeme lx)⟩ r1 := ⟨_, _, hl, rfl⟩
    have hne2 : (opLexeme lx).tok ≠ .ch (c! ',') := by
      intro h
      have := opLexeme_ch (lexExpr_shape hl) h
      simp only at this
      subst this
      exact hne rfl
    refine Ev.step (Ev.bind (k := fun f e => do
      let t ← lookExpr env
      if t ≠ .ch (c! ',') then pure (list ++ [e])
      else do
        let _ ← lexExprP env
        pExprList env f (list ++ [e])) hi (Ev.bind (Ev.const (lookExpr_atO hO hl)) ⟨0, fun f _ => ?_⟩)) fun f => ?_
    · dsimp only
      rw [if_pos hne2]
      rfl
    · show pExprList env (f + 1) _ s = _
      conv => lhs; unfold pExprList
      rfl
  | _, _, .cons ts e us es h h2 => by
    intro list s r r1 r2 lx hs hlx hl hst hne
    obtain ⟨ra, hra, hlx2⟩ := hlx.split
    obtain ⟨rb, hrb, hlx3⟩ := hlx2.cons_inv
    have hlc := hrb.expr_inv
    have hsc := stop_comma 0
    obtain ⟨si, hsi, hci⟩ := pExpr_complete h 0 (Nat.le_refl _) hs hra hlc hsc.1 (stop_comma 1).2
    have hi := hci _ (exprLoop_done (n := 0) hsi hlc hsc.2)
    have hO : AtO env ⟨rb, some (opLexeme (.plain (.ch (c! ','))))⟩ ra := ⟨_, _, hlc, rfl⟩
    have ih := pExprList_complete h2 (list ++ [e]) (.inl rfl : AtX env ⟨rb, none⟩ rb) hlx3 hl hst hne
    rw [List.append_assoc] at ih
    refine Ev.step (Ev.bind (k := fun f e => do
      let t ← lookExpr env
      if t ≠ .ch (c! ',') then pure (list ++ [e])
      else do
        let _ ← lexExprP env
        pExprList env f (list ++ [e])) hi (Ev.bind (Ev.const (lookExpr_atO hO hlc)) ?_)) fun f => ?_
    · obtain ⟨f0, h0⟩ := ih
      refine ⟨f0, fun f hf => ?_⟩
      dsimp only
      rw [if_neg (by simp [opLexeme, Lexeme.plain]), bind_ok (lexExprP_atO hO hlc)]
      exact h0 f hf
    · show pExprList env (f + 1) _ s = _
      conv => lhs; unfold pExprList
      rfl
end

end JP
