import Verif.Proof.Grammar
/-! What the parser of expressions accepts is derived by the grammar, with the tree that it returns. -/
namespace JP
open Spec

variable {env : Env}

theorem GExpr_mono {v : Bytes → Bool} {n m : Nat} {ts : List Token} {e : Expr} (h : GExpr v m ts e) (hn : n ≤ m) :
    GExpr v n ts e := by
  cases h with
  | unary _ _ _ h => exact .unary _ _ _ h
  | binary _ ts₁ a lx op k ts₂ b hk ho h1 h2 => exact .binary _ _ _ _ _ _ _ _ (Nat.le_trans hn hk) ho h1 h2

/-- A token that does not continue a primary. -/
def NotPost (lx : Lexeme) : Prop :=
  lx.tok ≠ .ch (c! '(') ∧ lx.tok ≠ .ch (c! '[') ∧ lx.tok ≠ .ch (c! '.')

/-- The next token of `r` by the rules for expressions. -/
def NextX (env : Env) (r : Rd) (Q : Lexeme → Prop) : Prop := ∀ lx r', lexExpr env r = some (lx, r') → Q lx

theorem NextX.of {r r' : Rd} {lx : Lexeme} {Q : Lexeme → Prop} (h : lexExpr env r = some (lx, r')) (hq : Q lx) :
    NextX env r Q := by
  intro lx' r'' h'
  rw [h] at h'; cases h'; exact hq

/-- No operator of this priority or more. -/
def OpBelow (n : Nat) (lx : Lexeme) : Prop := ∀ op k, OpTok lx op k → k < n

/-- An expression with the opcode of names is a name. -/
def NameOk (e : Expr) : Prop := e.opcode = .id → ∃ n, e = .name n

mutual
theorem GExpr_name {v : Bytes → Bool} : ∀ {n : Nat} {ts : List Token} {e : Expr}, GExpr v n ts e → NameOk e
  | _, _, _, .unary _ _ _ h => GUnary_name h
  | _, _, _, .binary _ _ _ _ _ _ _ _ _ ho _ _ => by
    intro h; cases ho <;> simp [Expr.opcode] at h
theorem GUnary_name {v : Bytes → Bool} : ∀ {ts : List Token} {e : Expr}, GUnary v ts e → NameOk e
  | _, _, .primary _ _ h => GPrimary_name h
  | _, _, .neg _ _ _ => by intro h; simp [Expr.opcode] at h
  | _, _, .not _ _ _ => by intro h; simp [Expr.opcode] at h
theorem GPrimary_name {v : Bytes → Bool} : ∀ {ts : List Token} {e : Expr}, GPrimary v ts e → NameOk e
  | _, _, .atom _ _ h => GAtom_name h
  | _, _, .call _ _ _ _ _ _ => by intro h; simp [Expr.opcode] at h
  | _, _, .index _ _ _ _ _ _ => by intro h; simp [Expr.opcode] at h
  | _, _, .dot _ _ _ _ => by intro h; simp [Expr.opcode] at h
theorem GAtom_name {v : Bytes → Bool} : ∀ {ts : List Token} {e : Expr}, GAtom v ts e → NameOk e
  | _, _, .tru => by intro h; simp [Expr.opcode] at h
  | _, _, .fls => by intro h; simp [Expr.opcode] at h
  | _, _, .nul => by intro h; simp [Expr.opcode] at h
  | _, _, .name s _ _ _ => fun _ => ⟨s, rfl⟩
  | _, _, .int _ => by intro h; simp [Expr.opcode] at h
  | _, _, .real _ => by intro h; simp [Expr.opcode] at h
  | _, _, .str _ => by intro h; simp [Expr.opcode] at h
  | _, _, .re _ _ => by intro h; simp [Expr.opcode] at h
  | _, _, .current => by intro h; simp [Expr.opcode] at h
  | _, _, .root => by intro h; simp [Expr.opcode] at h
  | _, _, .paren _ _ h => GExpr_name h
  | _, _, .array _ _ _ => by intro h; simp [Expr.opcode] at h
end

/-- What a parse of an expression starting at `r` means. -/
def ExprTo (env : Env) (r : Rd) (n : Nat) (e : Expr) (s' : LState) : Prop :=
  ∃ ts r1, Lexes env r ts r1 ∧ GExpr env.reValid n ts e ∧ AtO env s' r1 ∧ NextX env r1 (OpBelow n)

/-- What a parse of a unary expression starting at `r` means. -/
def UnaryTo (env : Env) (r : Rd) (e : Expr) (s' : LState) : Prop :=
  ∃ ts r1, Lexes env r ts r1 ∧ GUnary env.reValid ts e ∧
    ∃ lx r2, lexExpr env r1 = some (lx, r2) ∧ s' = ⟨r2, some lx⟩ ∧ NotPost lx

/-- What a parse of the first part of a primary starting at `r` means. -/
def Primary1To (env : Env) (r : Rd) (e : Expr) (s' : LState) : Prop :=
  ∃ ts r1, Lexes env r ts r1 ∧ (GPrimary env.reValid ts e ∧ s' = ⟨r1, none⟩ ∨
    GUnary env.reValid ts e ∧ ∃ lx r2, lexExpr env r1 = some (lx, r2) ∧ s' = ⟨r2, some lx⟩ ∧ NotPost lx)

theorem lexRegexpGo_str (ec : UInt8) : ∀ (rest before acc : Bytes), (lexRegexpGo ec before acc rest).1.err = none →
    ∃ n, (lexRegexpGo ec before acc rest).1 = ⟨.re, .str n, none⟩
  | [], _, _, h => by simp [lexRegexpGo] at h
  | [c], _, acc, h => by
    unfold lexRegexpGo at h ⊢
    split
    · exact ⟨acc, rfl⟩
    · next hc => simp [hc] at h
  | c :: d :: ds, before, acc, h => by
    unfold lexRegexpGo at h ⊢
    split
    · exact ⟨acc, rfl⟩
    · next hc =>
      rw [if_neg hc] at h
      split
      · next hc2 => rw [if_pos hc2] at h; exact lexRegexpGo_str ec ds _ _ h
      · next hc2 => rw [if_neg hc2] at h; exact lexRegexpGo_str ec (d :: ds) _ _ h

theorem lexRegexp_str {ec : UInt8} (r : Rd) (h : (lexRegexp ec r).1.err = none) :
    ∃ n, (lexRegexp ec r).1 = ⟨.re, .str n, none⟩ := lexRegexpGo_str _ _ _ _ h

theorem reads_name {r r' : Rd} {lx : Lexeme} (hl : lexExpr env r = some (lx, r')) (he : lx.err = none)
    (ht : lx.tok = .id) {α : Type} {k : Bytes → P α} {s : LState} {x : α} {s' : LState}
    (h : (lx.s >>= k) s = .ok (x, s')) : ∃ n, lx = nameTok n ∧ Reads env (.expr (nameTok n)) r r' ∧ k n s = .ok (x, s') := by
  have hs := lexExpr_shape hl
  simp only at hs
  cases hs with
  | name n => exact ⟨n, rfl, .expr hl rfl (by simp), h⟩
  | plain t hp => simp only [Lexeme.plain] at ht; subst ht; simp [Tok.isPlain] at hp
  | fail e => simp [Lexeme.fail] at ht
  | _ => simp at ht

mutual
theorem pExpr_sound : ∀ (f : Nat) (n : Nat) {s : LState} {r : Rd} {e : Expr} {s' : LState}, AtX env s r →
    pExpr env f n s = .ok (e, s') → ExprTo env r n e s'
  | 0, _, _, _, _, _, _, h => by cases h
  | f + 1, n, s, r, e, s', hs, h => by
    unfold pExpr at h
    obtain ⟨e1, s1, h1, h2⟩ := bind_ok_inv h
    obtain ⟨ts, r1, ht, hg, lx, r2, hl, rfl, hnp⟩ := pPrimary_sound f hs h1
    exact pExprLoop_sound f n (.inl (.inr ⟨lx, r2, hl, rfl⟩)) ht (.unary _ _ _ hg) (fun _ _ _ _ _ _ => .unary _ _ _ hg) h2
theorem pExprLoop_sound : ∀ (f : Nat) (n : Nat) {s : LState} {r0 r : Rd} {ts0 : List Token} {e e' : Expr} {s' : LState},
    AtX env s r ∨ AtO env s r → Lexes env r0 ts0 r → GExpr env.reValid n ts0 e →
    NextX env r (fun lx => ∀ op k, OpTok lx op k → GExpr env.reValid k ts0 e) →
    pExprLoop env f n e s = .ok (e', s') → ExprTo env r0 n e' s'
  | 0, _, _, _, _, _, _, _, _, _, _, _, _, h => by cases h
  | f + 1, n, s, r0, r, ts0, e, e', s', hs, hlx, hg, hnext, h => by
    unfold pExprLoop at h
    obtain ⟨lx, r', hl⟩ := lexExpr_some env r
    rw [bind_ok (lookOp_at hs hl)] at h
    have hsh := lexExpr_shape hl
    have hO : AtO env ⟨r', some (opLexeme lx)⟩ r := ⟨lx, r', hl, rfl⟩
    by_cases hp : (n : Int) ≤ (tok2op (opLexeme lx).tok).precedence
    · rw [if_pos hp] at h
      obtain ⟨op, k, ho, hk⟩ := (tok2op_table hsh).1 hp
      obtain ⟨o1, o2, o3, o4⟩ := OpTok.tok2op ho
      rw [bind_ok (lexOp_at (.inr hO) hl), o4] at h
      dsimp only at h
      rw [o1] at h
      obtain ⟨b, s2, hb, h⟩ := bind_ok_inv h
      have hk1 : op.precedence + op.associativity = ((k + 1 : Nat) : Int) := by rw [o2, o3]; rfl
      rw [hk1] at hb
      obtain ⟨us, r2, hu, hgb, hO2, hn2⟩ := pExpr_sound f (k + 1) (.inl rfl) hb
      have hrd : Reads env (.expr lx) r r' :=
        .expr hl (by cases ho <;> rfl) (by cases ho <;> simp [Lexeme.plain])
      have hgk := hnext lx r' hl op k ho
      have hnew : ∀ m, m ≤ k → GExpr env.reValid m (ts0 ++ .expr lx :: us) (.inner op [e, b]) :=
        fun m hm => .binary _ _ _ _ _ _ _ _ hm ho hgk hgb
      refine pExprLoop_sound f n (.inr hO2) (hlx.append (.cons hrd hu)) (hnew n hk) ?_ h
      intro lx2 r3 hl2 op2 k2 ho2
      have := hn2 lx2 r3 hl2 op2 k2 ho2
      exact hnew k2 (by omega)
    · rw [if_neg hp] at h
      obtain ⟨rfl, rfl⟩ := pure_ok_inv h
      refine ⟨ts0, r, hlx, hg, hO, NextX.of hl ?_⟩
      intro op k ho
      refine Nat.lt_of_not_le fun hk => hp ((tok2op_table hsh).2 ⟨op, k, ho, hk⟩)
theorem pPrimary_sound : ∀ (f : Nat) {s : LState} {r : Rd} {e : Expr} {s' : LState}, AtX env s r →
    pPrimary env f s = .ok (e, s') → UnaryTo env r e s'
  | 0, _, _, _, _, _, h => by cases h
  | f + 1, s, r, e, s', hs, h => by
    unfold pPrimary at h
    obtain ⟨e1, s1, h1, h2⟩ := bind_ok_inv h
    obtain ⟨ts, r1, ht, h3⟩ := pPrimary1_sound f hs h1
    refine pPrimaryLoop_sound f ?_ ht ?_ h2
    · rcases h3 with ⟨_, rfl⟩ | ⟨_, lx, r2, hl, rfl, _⟩
      · exact .inl rfl
      · exact .inr ⟨lx, r2, hl, rfl⟩
    · rcases h3 with ⟨hg, _⟩ | ⟨hg, lx, r2, hl, _, hn⟩
      · exact .inl hg
      · exact .inr ⟨hg, NextX.of hl hn⟩
theorem pPrimaryLoop_sound : ∀ (f : Nat) {s : LState} {r0 r : Rd} {ts0 : List Token} {e e' : Expr} {s' : LState},
    AtX env s r → Lexes env r0 ts0 r →
    GPrimary env.reValid ts0 e ∨ (GUnary env.reValid ts0 e ∧ NextX env r NotPost) →
    pPrimaryLoop env f e s = .ok (e', s') → UnaryTo env r0 e' s'
  | 0, _, _, _, _, _, _, _, _, _, _, h => by cases h
  | f + 1, s, r0, r, ts0, e, e', s', hs, hlx, hg, h => by
    unfold pPrimaryLoop at h
    obtain ⟨lx, r', hl⟩ := lexExpr_some env r
    rw [bind_ok (lookExpr_at hs hl)] at h
    have hsh := lexExpr_shape hl
    have hX : AtX env ⟨r', some lx⟩ r := .inr ⟨lx, r', hl, rfl⟩
    have hgp : ¬ NotPost lx → GPrimary env.reValid ts0 e := by
      intro hn
      rcases hg with hg | ⟨_, hg⟩
      · exact hg
      · exact absurd (hg lx r' hl) hn
    have hrd : ∀ c, lx.tok = .ch c → Reads env (.x c) r r' := by
      intro c hc
      have := hsh.ch hc
      simp only at this
      subst this
      exact .expr hl rfl (by simp [Lexeme.plain])
    by_cases h1 : lx.tok = .ch (c! '(')
    · rw [if_pos h1] at h
      have hgp := hgp (fun hn => hn.1 h1)
      by_cases hid : e.opcode = .id
      · rw [if_neg (by simpa using hid)] at h
        obtain ⟨nm, rfl⟩ := GPrimary_name hgp hid
        rw [bind_ok (lexExprP_at hX hl)] at h
        obtain ⟨e2, s2, h2, h⟩ := bind_ok_inv h
        obtain ⟨us, es, r2, hu, hge, rfl, rfl⟩ := pApplication_sound f _ _ _ (.inl rfl) h2
        exact pPrimaryLoop_sound f (.inl rfl) (hlx.append (.cons (hrd _ h1) hu)) (.inl (.call _ _ _ _ hgp hge)) h
      · rw [if_pos hid] at h; cases h
    · rw [if_neg h1] at h
      by_cases h2 : lx.tok = .ch (c! '[')
      · rw [if_pos h2] at h
        have hgp := hgp (fun hn => hn.2.1 h2)
        rw [bind_ok (lexExprP_at hX hl)] at h
        obtain ⟨ix, s2, h3, h⟩ := bind_ok_inv h
        obtain ⟨us, r2, hu, hge, hO, _⟩ := pExpr_sound f 0 (.inl rfl) h3
        obtain ⟨_, s3, h4, h⟩ := bind_ok_inv h
        obtain ⟨r3, hr3, rfl⟩ := expectO_inv hO h4
        exact pPrimaryLoop_sound f (.inl rfl) (hlx.append (.cons (hrd _ h2) (hu.append (.one hr3))))
          (.inl (.index _ _ _ _ hgp hge)) h
      · rw [if_neg h2] at h
        by_cases h3 : lx.tok = .ch (c! '.')
        · rw [if_pos h3] at h
          have hgp := hgp (fun hn => hn.2.2 h3)
          rw [bind_ok (lexExprP_at hX hl)] at h
          obtain ⟨lx2, r2, hl2⟩ := lexExpr_some env r'
          rw [bind_ok (lexExprP_at (.inl rfl) hl2)] at h
          cases he : lx2.err with
          | some er => simp only [he] at h; cases h
          | none =>
            simp only [he] at h
            by_cases hid : lx2.tok = .id
            · rw [if_neg (by simpa using hid)] at h
              obtain ⟨nm, rfl, hrd2, h⟩ := reads_name hl2 he hid h
              exact pPrimaryLoop_sound f (.inl rfl) (hlx.append (.cons (hrd _ h3) (.one hrd2))) (.inl (.dot _ _ _ hgp)) h
            · rw [if_pos hid] at h; cases h
        · rw [if_neg h3] at h
          obtain ⟨rfl, rfl⟩ := pure_ok_inv h
          refine ⟨ts0, r, hlx, ?_, lx, r', hl, rfl, h1, h2, h3⟩
          rcases hg with hg | ⟨hg, _⟩
          · exact .primary _ _ hg
          · exact hg
theorem pApplication_sound : ∀ (f : Nat) (op : Op) (c : UInt8) (args : List Expr) {s : LState} {r : Rd} {e : Expr}
    {s' : LState}, AtX env s r → pApplication env f op (.ch c) args s = .ok (e, s') →
    ∃ ts es r1, Lexes env r (ts ++ [.x c]) r1 ∧ GList env.reValid ts es ∧ e = .inner op (args ++ es) ∧ s' = ⟨r1, none⟩
  | 0, _, _, _, _, _, _, _, _, h => by cases h
  | f + 1, op, c, args, s, r, e, s', hs, h => by
    unfold pApplication at h
    obtain ⟨lx, r', hl⟩ := lexExpr_some env r
    rw [bind_ok (lookExpr_at hs hl)] at h
    have hX : AtX env ⟨r', some lx⟩ r := .inr ⟨lx, r', hl, rfl⟩
    dsimp only at h
    by_cases hc : lx.tok = .ch c
    · rw [if_neg (by simpa using hc)] at h
      obtain ⟨_, s1, h1, h⟩ := bind_ok_inv h
      obtain ⟨rfl, rfl⟩ := pure_ok_inv h1
      obtain ⟨_, s2, h2, h⟩ := bind_ok_inv h
      obtain ⟨r2, hr2, rfl⟩ := expectX_inv hX h2
      obtain ⟨rfl, rfl⟩ := pure_ok_inv h
      exact ⟨[], [], r2, .one hr2, .nil, by simp, rfl⟩
    · rw [if_pos hc] at h
      obtain ⟨l, s1, h1, h⟩ := bind_ok_inv h
      obtain ⟨ts, es, r1, ht, hg, rfl, hO⟩ := pExprList_sound f args hX h1
      obtain ⟨_, s2, h2, h⟩ := bind_ok_inv h
      obtain ⟨r2, hr2, rfl⟩ := expectO_inv hO h2
      obtain ⟨rfl, rfl⟩ := pure_ok_inv h
      exact ⟨ts, es, r2, ht.append (.one hr2), .some _ _ hg, rfl, rfl⟩
theorem pExprList_sound : ∀ (f : Nat) (list : List Expr) {s : LState} {r : Rd} {l : List Expr} {s' : LState}, AtX env s r →
    pExprList env f list s = .ok (l, s') →
    ∃ ts es r1, Lexes env r ts r1 ∧ GList1 env.reValid ts es ∧ l = list ++ es ∧ AtO env s' r1
  | 0, _, _, _, _, _, _, h => by cases h
  | f + 1, list, s, r, l, s', hs, h => by
    unfold pExprList at h
    obtain ⟨e, s1, h1, h⟩ := bind_ok_inv h
    obtain ⟨ts, r1, ht, hg, hO, _⟩ := pExpr_sound f 0 hs h1
    obtain ⟨lx, r', hl⟩ := lexExpr_some env r1
    dsimp only at h
    rw [bind_ok (lookExpr_atO hO hl)] at h
    have hO2 : AtO env ⟨r', some (opLexeme lx)⟩ r1 := ⟨lx, r', hl, rfl⟩
    by_cases hc : (opLexeme lx).tok = .ch (c! ',')
    · rw [if_neg (by simpa using hc)] at h
      rw [bind_ok (lexExprP_atO hO2 hl)] at h
      obtain ⟨us, es, r2, hu, hg2, rfl, hO3⟩ := pExprList_sound f _ (.inl rfl) h
      have := opLexeme_ch (lexExpr_shape hl) hc
      simp only at this
      subst this
      have hrd : Reads env (.x (c! ',')) r1 r' := .expr hl rfl (by simp [Lexeme.plain])
      exact ⟨_, _, r2, ht.append (.cons hrd hu), .cons _ _ _ _ hg hg2, by simp, hO3⟩
    · rw [if_pos hc] at h
      obtain ⟨rfl, rfl⟩ := pure_ok_inv h
      exact ⟨ts, [e], r1, ht, .one _ _ hg, rfl, hO2⟩
theorem pPrimary1_sound : ∀ (f : Nat) {s : LState} {r : Rd} {e : Expr} {s' : LState}, AtX env s r →
    pPrimary1 env f s = .ok (e, s') → Primary1To env r e s'
  | 0, _, _, _, _, _, h => by cases h
  | f + 1, s, r, e, s', hs, h => by
    unfold pPrimary1 at h
    obtain ⟨lx, r', hl⟩ := lexExpr_some env r
    rw [bind_ok (lexExprP_at hs hl)] at h
    have hsh := lexExpr_shape hl
    simp only at hsh
    cases hsh with
    | fail er => simp only [Lexeme.fail] at h; cases h
    | name n =>
      have hrd : Lexes env r [.expr (nameTok n)] r' := .one (.expr hl rfl (by simp))
      have h : (if n = b! "true" then pure (.bool true)
        else if n = b! "false" then pure (.bool false)
        else if n = b! "null" then pure .null
        else pure (.name n) : P Expr) ⟨r', none⟩ = .ok (e, s') := h
      by_cases h1 : n = b! "true"
      · rw [if_pos h1] at h; obtain ⟨rfl, rfl⟩ := pure_ok_inv h; subst h1
        exact ⟨_, _, hrd, .inl ⟨.atom _ _ .tru, rfl⟩⟩
      rw [if_neg h1] at h
      by_cases h2 : n = b! "false"
      · rw [if_pos h2] at h; obtain ⟨rfl, rfl⟩ := pure_ok_inv h; subst h2
        exact ⟨_, _, hrd, .inl ⟨.atom _ _ .fls, rfl⟩⟩
      rw [if_neg h2] at h
      by_cases h3 : n = b! "null"
      · rw [if_pos h3] at h; obtain ⟨rfl, rfl⟩ := pure_ok_inv h; subst h3
        exact ⟨_, _, hrd, .inl ⟨.atom _ _ .nul, rfl⟩⟩
      rw [if_neg h3] at h
      obtain ⟨rfl, rfl⟩ := pure_ok_inv h
      exact ⟨_, _, hrd, .inl ⟨.atom _ _ (.name _ h1 h2 h3), rfl⟩⟩
    | str n =>
      have h : (pure (.str n) : P Expr) ⟨r', none⟩ = .ok (e, s') := h
      obtain ⟨rfl, rfl⟩ := pure_ok_inv h
      exact ⟨_, _, .one (.expr hl rfl (by simp)), .inl ⟨.atom _ _ (.str _), rfl⟩⟩
    | int n =>
      have h : (pure (.int n) : P Expr) ⟨r', none⟩ = .ok (e, s') := h
      obtain ⟨rfl, rfl⟩ := pure_ok_inv h
      exact ⟨_, _, .one (.expr hl rfl (by simp)), .inl ⟨.atom _ _ (.int _), rfl⟩⟩
    | real n =>
      have h : (pure (.float n) : P Expr) ⟨r', none⟩ = .ok (e, s') := h
      obtain ⟨rfl, rfl⟩ := pure_ok_inv h
      exact ⟨_, _, .one (.expr hl rfl (by simp)), .inl ⟨.atom _ _ (.real _), rfl⟩⟩
    | plain t hp =>
      simp only [Lexeme.plain] at h
      cases t with
      | ch c =>
        have hrd : Reads env (.x c) r r' := .expr hl rfl (by simp [Lexeme.plain])
        dsimp only at h
        by_cases h1 : c = c! '-'
        · rw [if_pos (by simpa using h1)] at h
          obtain ⟨a, s1, ha, h⟩ := bind_ok_inv h
          obtain ⟨rfl, rfl⟩ := pure_ok_inv h
          obtain ⟨ts, r1, ht, hg, hx⟩ := pPrimary_sound f (.inl rfl) ha
          subst h1
          exact ⟨_, r1, .cons hrd ht, .inr ⟨.neg _ _ hg, hx⟩⟩
        rw [if_neg (by simpa using h1)] at h
        by_cases h2 : c = c! '!'
        · rw [if_pos (by simpa using h2)] at h
          obtain ⟨a, s1, ha, h⟩ := bind_ok_inv h
          obtain ⟨rfl, rfl⟩ := pure_ok_inv h
          obtain ⟨ts, r1, ht, hg, hx⟩ := pPrimary_sound f (.inl rfl) ha
          subst h2
          exact ⟨_, r1, .cons hrd ht, .inr ⟨.not _ _ hg, hx⟩⟩
        rw [if_neg (by simpa using h2)] at h
        by_cases h3 : c = c! '/'
        · rw [if_pos (by simpa using h3)] at h
          rw [bind_ok (m := P.offset) rfl] at h
          subst h3
          rw [bind_ok (a := (lexRegexp (c! '/') r').1) (s1 := ⟨(lexRegexp (c! '/') r').2, none⟩) rfl] at h
          cases he : (lexRegexp (c! '/') r').1.err with
          | some er => simp only [he] at h; cases h
          | none =>
            simp only [he] at h
            obtain ⟨n, hn⟩ := lexRegexp_str r' he
            have h : (if env.reValid n then pure (.re n) else P.fail (.badRegexp n r'.offset) : P Expr)
                ⟨(lexRegexp (c! '/') r').2, none⟩ = .ok (e, s') := by
              rw [hn] at h; exact h
            by_cases hv : env.reValid n = true
            · rw [if_pos hv] at h
              obtain ⟨rfl, rfl⟩ := pure_ok_inv h
              exact ⟨_, _, .cons hrd (.one (.regexp (s := n) (Prod.ext hn rfl))), .inl ⟨.atom _ _ (.re _ hv), rfl⟩⟩
            · rw [if_neg hv] at h; cases h
        rw [if_neg (by simpa using h3)] at h
        by_cases h4 : c = c! '@'
        · rw [if_pos (by simpa using h4)] at h
          obtain ⟨rfl, rfl⟩ := pure_ok_inv h
          subst h4
          exact ⟨_, _, .one hrd, .inl ⟨.atom _ _ .current, rfl⟩⟩
        rw [if_neg (by simpa using h4)] at h
        by_cases h5 : c = c! '$'
        · rw [if_pos (by simpa using h5)] at h
          obtain ⟨rfl, rfl⟩ := pure_ok_inv h
          subst h5
          exact ⟨_, _, .one hrd, .inl ⟨.atom _ _ .root, rfl⟩⟩
        rw [if_neg (by simpa using h5)] at h
        by_cases h6 : c = c! '('
        · rw [if_pos (by simpa using h6)] at h
          obtain ⟨a, s1, ha, h⟩ := bind_ok_inv h
          obtain ⟨ts, r1, ht, hg, hO, _⟩ := pExpr_sound f 0 (.inl rfl) ha
          obtain ⟨_, s2, h2, h⟩ := bind_ok_inv h
          obtain ⟨r2, hr2, rfl⟩ := expectO_inv hO h2
          obtain ⟨rfl, rfl⟩ := pure_ok_inv h
          subst h6
          exact ⟨_, _, .cons hrd (ht.append (.one hr2)), .inl ⟨.atom _ _ (.paren _ _ hg), rfl⟩⟩
        rw [if_neg (by simpa using h6)] at h
        by_cases h7 : c = c! '['
        · rw [if_pos (by simpa using h7)] at h
          obtain ⟨us, es, r2, hu, hge, rfl, rfl⟩ := pApplication_sound f _ _ _ (.inl rfl) h
          subst h7
          exact ⟨_, _, .cons hrd hu, .inl ⟨.atom _ _ (.array _ _ hge), rfl⟩⟩
        rw [if_neg (by simpa using h7)] at h
        cases h
      | _ => first | (cases h; done) | simp [Tok.isPlain] at hp
end

end JP
