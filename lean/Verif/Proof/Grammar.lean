import Verif.Spec.Grammar
import Verif.Proof.ParseTotal
/-! Tokens and states of the parser, as a basis for relating the parser to the grammar. -/
namespace JP
open Spec

/-! ### The shapes of tokens -/

/-- The tokens without a value. -/
def Tok.isPlain : Tok → Bool
  | .error | .id | .string | .int | .real | .re | .in_ | .nin => false
  | _ => true

/-- What a scanner can return. -/
inductive Lexeme.Shape : Lexeme → Prop
  | fail (e) : Shape (.fail e)
  | name (s) : Shape (nameTok s)
  | str (s) : Shape (strTok s)
  | int (n) : Shape (intTok n)
  | real (f) : Shape (realTok f)
  | plain (t) : t.isPlain = true → Shape (.plain t)

theorem isNext_shape {c : UInt8} {t f : Tok} {r : Rd} (ht : t.isPlain = true) (hf : f = .error ∨ f.isPlain = true) :
    (isNext c t f r).1.Shape := by
  unfold isNext
  split
  · exact .plain _ ht
  · split
    · exact .fail _
    · next h =>
      rcases hf with rfl | hf
      · simp at h
      · exact .plain _ hf

theorem lexNumber_shape (env : Env) (real : Bool) (r : Rd) : (lexNumber env real r).1.Shape := by
  unfold lexNumber
  dsimp only
  split
  · split
    · exact .fail _
    · exact .int _
  · have fin : ∀ text r, (match env.parseFloat text with
        | none => (Lexeme.fail (.parseFloat text), r)
        | some f => (⟨.real, .float f, none⟩, r) : Lexeme × Rd).1.Shape := by
      intro text r
      split
      · exact .fail _
      · exact .real _
    split
    · split
      · split <;> (try dsimp only) <;> split <;> (try dsimp only)
        all_goals first | exact .fail _ | exact fin _ _ | (split <;> first | exact .fail _ | exact fin _ _)
      · exact fin _ _
    · exact fin _ _

theorem lexQuoted_shape {cq : UInt8} {r : Rd} {x : Lexeme × Rd} (h : lexQuoted cq r = some x) : x.1.Shape := by
  unfold lexQuoted at h
  split at h
  · cases h
  · cases h; exact .fail _
  · cases h; exact .str _

theorem lexExpr_shape {env : Env} {r : Rd} {x : Lexeme × Rd} (h : lexExpr env r = some x) : x.1.Shape := by
  unfold lexExpr at h
  split at h
  · cases h; exact .plain _ rfl
  · simp only at h
    repeat' split at h
    all_goals first
      | exact lexQuoted_shape h
      | (cases h; first
          | exact isNext_shape rfl (.inr rfl)
          | exact lexNumber_shape _ _ _
          | exact .name _
          | exact .fail _
          | exact .plain _ rfl)

theorem lexPath_shape {env : Env} {r : Rd} {x : Lexeme × Rd} (h : lexPath env r = some x) : x.1.Shape := by
  unfold lexPath at h
  split at h
  · cases h; exact .plain _ rfl
  · next c r1 hc =>
    simp only at h
    repeat' split at h
    all_goals first
      | exact lexQuoted_shape h
      | (cases h; done)
      | (cases h; first
          | exact isNext_shape rfl (.inr rfl)
          | exact isNext_shape rfl (.inl rfl)
          | exact lexNumber_shape _ _ _
          | exact .name _
          | exact .fail _
          | exact .plain _ rfl)
      | skip
    all_goals
      next ht _ n hv _ =>
      cases h
      have := lexNumber_shape env false r1.ws.get.2
      revert this ht hv
      generalize (lexNumber env false r1.ws.get.2).1 = lx
      intro ht hv hs
      cases hs with
      | int m => exact .int _
      | plain t h => simp [Lexeme.plain] at hv
      | fail e => simp [Lexeme.fail] at ht
      | _ => simp at ht

/-! ### Operators -/

theorem opLexeme_plain {t : Tok} (h : t.isPlain = true) : opLexeme (.plain t) = .plain t := by
  have : t ≠ .id := by rintro rfl; simp [Tok.isPlain] at h
  simp [opLexeme, Lexeme.plain, this]

theorem opLexeme_fail (e : LexErr) : opLexeme (.fail e) = .fail e := by
  simp [opLexeme, Lexeme.fail]

/-- Only the tokens of the table are operators. -/
theorem tok2op_table {lx : Lexeme} (hs : lx.Shape) {n : Nat} :
    (n : Int) ≤ (tok2op (opLexeme lx).tok).precedence ↔ ∃ op k, OpTok lx op k ∧ n ≤ k := by
  constructor
  · intro h
    cases hs with
    | fail e =>
      rw [opLexeme_fail] at h
      simp [Lexeme.fail, tok2op, Op.precedence] at h
      omega
    | name s =>
      by_cases h1 : s = b! "in"
      · subst h1
        refine ⟨_, _, .in_, ?_⟩
        simp [opLexeme, tok2op, Op.precedence] at h; omega
      · by_cases h2 : s = b! "nin"
        · subst h2
          refine ⟨_, _, .nin, ?_⟩
          simp [opLexeme, tok2op, Op.precedence] at h; omega
        · simp [opLexeme, tok2op, Op.precedence, h1, h2] at h; omega
    | str s => simp [opLexeme, tok2op, Op.precedence] at h; omega
    | int s => simp [opLexeme, tok2op, Op.precedence] at h; omega
    | real s => simp [opLexeme, tok2op, Op.precedence] at h; omega
    | plain t ht =>
      rw [opLexeme_plain ht] at h
      simp only [Lexeme.plain] at h
      cases t with
      | eq => exact ⟨_, _, .eq, by simp [tok2op, Op.precedence] at h; omega⟩
      | ne => exact ⟨_, _, .ne, by simp [tok2op, Op.precedence] at h; omega⟩
      | le => exact ⟨_, _, .le, by simp [tok2op, Op.precedence] at h; omega⟩
      | ge => exact ⟨_, _, .ge, by simp [tok2op, Op.precedence] at h; omega⟩
      | and => exact ⟨_, _, .and, by simp [tok2op, Op.precedence] at h; omega⟩
      | or => exact ⟨_, _, .or, by simp [tok2op, Op.precedence] at h; omega⟩
      | match_ => exact ⟨_, _, .match_, by simp [tok2op, Op.precedence] at h; omega⟩
      | ch c =>
        simp only [tok2op] at h
        by_cases h1 : c = c! '*'
        · subst h1; exact ⟨_, _, .mul, by simp [Op.precedence] at h; omega⟩
        rw [if_neg (by simpa using h1)] at h
        by_cases h2 : c = c! '+'
        · subst h2; exact ⟨_, _, .add, by simp [Op.precedence] at h; omega⟩
        rw [if_neg (by simpa using h2)] at h
        by_cases h3 : c = c! '-'
        · subst h3; exact ⟨_, _, .sub, by simp [Op.precedence] at h; omega⟩
        rw [if_neg (by simpa using h3)] at h
        by_cases h4 : c = c! '/'
        · subst h4; exact ⟨_, _, .div, by simp [Op.precedence] at h; omega⟩
        rw [if_neg (by simpa using h4)] at h
        by_cases h5 : c = c! '%'
        · subst h5; exact ⟨_, _, .mod, by simp [Op.precedence] at h; omega⟩
        rw [if_neg (by simpa using h5)] at h
        by_cases h6 : c = c! '<'
        · subst h6; exact ⟨_, _, .lt, by simp [Op.precedence] at h; omega⟩
        rw [if_neg (by simpa using h6)] at h
        by_cases h7 : c = c! '>'
        · subst h7; exact ⟨_, _, .gt, by simp [Op.precedence] at h; omega⟩
        rw [if_neg (by simpa using h7)] at h
        by_cases h8 : c = c! '~'
        · subst h8; exact ⟨_, _, .tilde, by simp [Op.precedence] at h; omega⟩
        rw [if_neg (by simpa using h8)] at h
        simp [Op.precedence] at h; omega
      | _ => first
          | (simp [tok2op, Op.precedence] at h; omega)
          | simp [Tok.isPlain] at ht
  · rintro ⟨op, k, hk, hle⟩
    have : (tok2op (opLexeme lx).tok).precedence = k := by cases hk <;> rfl
    omega

theorem OpTok.tok2op {lx : Lexeme} {op : Op} {k : Nat} (h : OpTok lx op k) :
    tok2op (opLexeme lx).tok = op ∧ op.precedence = k ∧ op.associativity = 1 ∧ (opLexeme lx).err = none := by
  cases h <;> exact ⟨rfl, rfl, rfl, rfl⟩

theorem Spec.OpTok.unique {lx : Lexeme} {op op' : Op} {k k' : Nat} (h : OpTok lx op k) (h' : OpTok lx op' k') :
    op = op' ∧ k = k' := by
  have a := OpTok.tok2op h
  have b := OpTok.tok2op h'
  refine ⟨a.1.symm.trans b.1, ?_⟩
  have h1 := a.2.1
  have h2 := b.2.1
  rw [← a.1] at h1
  rw [← b.1] at h2
  omega

/-- A relabelled token that is a single character was one before. -/
theorem opLexeme_ch {lx : Lexeme} (hs : lx.Shape) {c : UInt8} (h : (opLexeme lx).tok = .ch c) : lx = .plain (.ch c) := by
  cases hs with
  | fail e => rw [opLexeme_fail] at h; simp [Lexeme.fail] at h
  | name s =>
    by_cases h1 : s = b! "in"
    · subst h1; simp [opLexeme] at h
    · by_cases h2 : s = b! "nin"
      · subst h2; simp [opLexeme] at h
      · simp [opLexeme, h1, h2] at h
  | str s => simp [opLexeme] at h
  | int s => simp [opLexeme] at h
  | real s => simp [opLexeme] at h
  | plain t ht => rw [opLexeme_plain ht] at h; simp only [Lexeme.plain] at h; rw [h]

theorem opLexeme_eof {lx : Lexeme} (hs : lx.Shape) : (opLexeme lx).tok = .eof ↔ lx = .plain .eof := by
  constructor
  · intro h
    cases hs with
    | fail e => rw [opLexeme_fail] at h; simp [Lexeme.fail] at h
    | name s =>
      by_cases h1 : s = b! "in"
      · subst h1; simp [opLexeme] at h
      · by_cases h2 : s = b! "nin"
        · subst h2; simp [opLexeme] at h
        · simp [opLexeme, h1, h2] at h
    | str s => simp [opLexeme] at h
    | int s => simp [opLexeme] at h
    | real s => simp [opLexeme] at h
    | plain t ht => rw [opLexeme_plain ht] at h; simp only [Lexeme.plain] at h; rw [h]
  · rintro rfl; rfl

theorem Lexeme.Shape.ch {lx : Lexeme} (hs : lx.Shape) {c : UInt8} (h : lx.tok = .ch c) : lx = .plain (.ch c) := by
  cases hs <;> simp_all [Lexeme.plain, Lexeme.fail]

theorem Lexeme.Shape.plainTok {lx : Lexeme} (hs : lx.Shape) {t : Tok} (ht : t.isPlain = true) (h : lx.tok = t) :
    lx = .plain t := by
  cases hs with
  | plain t' => simp only [Lexeme.plain] at h ⊢; rw [h]
  | _ => subst h; simp [Tok.isPlain, Lexeme.fail] at ht

/-! ### Reading tokens -/

/-- The token at `r` is `t`, and the rest begins at `r'`. -/
inductive Reads (env : Env) : Token → Rd → Rd → Prop
  | path {lx r r'} : lexPath env r = some (lx, r') → lx.err = none → lx.tok ≠ .eof → Reads env (.path lx) r r'
  | expr {lx r r'} : lexExpr env r = some (lx, r') → lx.err = none → lx.tok ≠ .eof → Reads env (.expr lx) r r'
  | regexp {s r r'} : lexRegexp (c! '/') r = (⟨.re, .str s, none⟩, r') → Reads env (.regexp s) r r'

/-- The tokens from `r` to `r'`. -/
inductive Lexes (env : Env) : Rd → List Token → Rd → Prop
  | nil {r} : Lexes env r [] r
  | cons {t ts r r1 r2} : Reads env t r r1 → Lexes env r1 ts r2 → Lexes env r (t :: ts) r2

variable {env : Env}

theorem Lexes.append {r1 r2 r3 : Rd} {ts us : List Token} (h1 : Lexes env r1 ts r2) (h2 : Lexes env r2 us r3) :
    Lexes env r1 (ts ++ us) r3 := by
  induction h1 with
  | nil => exact h2
  | cons hr _ ih => exact .cons hr (ih h2)

theorem Lexes.split {ts us : List Token} : ∀ {r1 r3 : Rd}, Lexes env r1 (ts ++ us) r3 →
    ∃ r2, Lexes env r1 ts r2 ∧ Lexes env r2 us r3 := by
  induction ts with
  | nil => intro r1 r3 h; exact ⟨r1, .nil, h⟩
  | cons t ts ih =>
    intro r1 r3 h
    cases h with
    | cons hr h =>
      obtain ⟨r2, ha, hb⟩ := ih h
      exact ⟨r2, .cons hr ha, hb⟩

theorem Lexes.one {r r' : Rd} {t : Token} (h : Reads env t r r') : Lexes env r [t] r' := .cons h .nil

theorem Reads.det {t : Token} {r a b : Rd} (h1 : Reads env t r a) (h2 : Reads env t r b) : a = b := by
  cases h1 with
  | path h => cases h2 with | path h' => rw [h] at h'; cases h'; rfl
  | expr h => cases h2 with | expr h' => rw [h] at h'; cases h'; rfl
  | regexp h => cases h2 with | regexp h' => rw [h] at h'; cases h'; rfl

/-! ### Results of parser actions -/

section
variable {α β : Type} {m : P α} {f : α → P β} {s : LState}

theorem bind_ok_inv {b : β} {s' : LState} (h : (m >>= f) s = .ok (b, s')) :
    ∃ a s1, m s = .ok (a, s1) ∧ f a s1 = .ok (b, s') := by
  change P.bind m f s = _ at h
  unfold P.bind at h
  split at h
  · next a s1 hm => exact ⟨a, s1, hm, h⟩
  · cases h
  · cases h
  · cases h

theorem bind_ok {a : α} {s1 : LState} (h : m s = .ok (a, s1)) : (m >>= f) s = f a s1 := by
  change P.bind m f s = _
  unfold P.bind
  rw [h]

theorem pure_ok {a : α} : (pure a : P α) s = .ok (a, s) := rfl
theorem pure_ok_inv {a b : α} {s' : LState} (h : (pure a : P α) s = .ok (b, s')) : b = a ∧ s' = s := by
  cases h; exact ⟨rfl, rfl⟩
theorem fail_ok_inv {e : PErr} {b : α} {s' : LState} (h : (P.fail e : P α) s = .ok (b, s')) : False := by
  cases h
end

/-- The state before a token by the rules for expressions at `r`. -/
def AtX (env : Env) (s : LState) (r : Rd) : Prop :=
  s = ⟨r, none⟩ ∨ ∃ lx r', lexExpr env r = some (lx, r') ∧ s = ⟨r', some lx⟩
/-- The state after an expression that ends at `r`. -/
def AtO (env : Env) (s : LState) (r : Rd) : Prop :=
  ∃ lx r', lexExpr env r = some (lx, r') ∧ s = ⟨r', some (opLexeme lx)⟩
/-- The state before a token by the rules for paths at `r`. -/
def AtP (env : Env) (s : LState) (r : Rd) : Prop :=
  s = ⟨r, none⟩ ∨ ∃ lx r', lexPath env r = some (lx, r') ∧ s = ⟨r', some lx⟩

theorem lexExpr_some (env : Env) (r : Rd) : ∃ lx r', lexExpr env r = some (lx, r') := by
  obtain ⟨x, h, _⟩ := lexExpr_ok env r
  exact ⟨x.1, x.2, h⟩
theorem lexPath_some (env : Env) (r : Rd) : ∃ lx r', lexPath env r = some (lx, r') := by
  obtain ⟨x, h, _⟩ := lexPath_ok env r
  exact ⟨x.1, x.2, h⟩

theorem Lexeme.Shape.look {lx : Lexeme} (h : lx.Shape) :
    (if lx.err.isSome = true then Tok.error else lx.tok) = lx.tok := by
  cases h <;> rfl

section
variable {s : LState} {r r' : Rd} {lx : Lexeme}

theorem lexExprP_at (h : AtX env s r) (hl : lexExpr env r = some (lx, r')) :
    lexExprP env s = .ok (lx, ⟨r', none⟩) := by
  rcases h with rfl | ⟨lx', r'', h1, rfl⟩
  · simp [lexExprP, lexWith, hl]
  · rw [hl] at h1; cases h1; rfl

theorem lexExprP_atO (h : AtO env s r) (hl : lexExpr env r = some (lx, r')) :
    lexExprP env s = .ok (opLexeme lx, ⟨r', none⟩) := by
  obtain ⟨lx', r'', h1, rfl⟩ := h
  rw [hl] at h1; cases h1; rfl

theorem lexPathP_at (h : AtP env s r) (hl : lexPath env r = some (lx, r')) :
    lexPathP env s = .ok (lx, ⟨r', none⟩) := by
  rcases h with rfl | ⟨lx', r'', h1, rfl⟩
  · simp [lexPathP, lexWith, hl]
  · rw [hl] at h1; cases h1; rfl

theorem lookWith_of {lex : P Lexeme} (h : lex s = .ok (lx, ⟨r', none⟩)) :
    lookWith lex s = .ok (if lx.err.isSome then .error else lx.tok, ⟨r', some lx⟩) := by
  unfold lookWith
  rw [bind_ok h]
  rfl

theorem lookExpr_at (h : AtX env s r) (hl : lexExpr env r = some (lx, r')) :
    lookExpr env s = .ok (lx.tok, ⟨r', some lx⟩) := by
  rw [lookExpr, lookWith_of (lexExprP_at h hl), (lexExpr_shape hl).look]

theorem opLexeme_look (hs : lx.Shape) : (if (opLexeme lx).err.isSome = true then Tok.error else (opLexeme lx).tok) = (opLexeme lx).tok := by
  cases hs with
  | name s =>
    by_cases h1 : s = b! "in"
    · subst h1; rfl
    · by_cases h2 : s = b! "nin"
      · subst h2; rfl
      · simp [opLexeme, h1, h2]
  | plain t ht => rw [opLexeme_plain ht]; rfl
  | _ => rfl

theorem lookExpr_atO (h : AtO env s r) (hl : lexExpr env r = some (lx, r')) :
    lookExpr env s = .ok ((opLexeme lx).tok, ⟨r', some (opLexeme lx)⟩) := by
  rw [lookExpr, lookWith_of (lexExprP_atO h hl), opLexeme_look (lexExpr_shape hl)]

theorem lookPath_at (h : AtP env s r) (hl : lexPath env r = some (lx, r')) :
    lookPath env s = .ok (lx.tok, ⟨r', some lx⟩) := by
  rw [lookPath, lookWith_of (lexPathP_at h hl), (lexPath_shape hl).look]

theorem lexOp_at (h : AtX env s r ∨ AtO env s r) (hl : lexExpr env r = some (lx, r')) :
    lexOp env s = .ok (opLexeme lx, ⟨r', none⟩) := by
  rw [lexOp_eq]
  rcases h with h | h
  · rw [bind_ok (lexExprP_at h hl)]; rfl
  · rw [bind_ok (lexExprP_atO h hl), opLexeme_idem]; rfl

theorem lookOp_at (h : AtX env s r ∨ AtO env s r) (hl : lexExpr env r = some (lx, r')) :
    lookOp env s = .ok ((opLexeme lx).tok, ⟨r', some (opLexeme lx)⟩) := by
  unfold lookOp
  rw [bind_ok (lexOp_at h hl)]
  rfl

theorem expect_inv {lex : P Lexeme} {nt : Tok} {s s' : LState} {lx : Lexeme} {u : Unit} (hl : lex s = .ok (lx, s'))
    {s2 : LState} (h : expect lex nt s = .ok (u, s2)) : lx.tok = nt ∧ s2 = s' := by
  unfold expect at h
  rw [bind_ok hl, bind_ok (m := P.offset) rfl] at h
  cases he : lx.err with
  | some e => simp only [he] at h; cases h
  | none =>
    simp only [he] at h
    by_cases h1 : lx.tok = nt
    · rw [if_neg (by simpa using h1)] at h; cases h; exact ⟨h1, rfl⟩
    · rw [if_pos h1] at h; cases h

theorem expect_of {lex : P Lexeme} {nt : Tok} {s s' : LState} {lx : Lexeme} (hl : lex s = .ok (lx, s'))
    (he : lx.err = none) (ht : lx.tok = nt) : expect lex nt s = .ok ((), s') := by
  unfold expect
  rw [bind_ok hl, bind_ok (m := P.offset) rfl]
  simp [he, ht]
  rfl

/-- What `expect` of a single character reads after an expression. -/
theorem expectO_inv {c : UInt8} {u : Unit} {s2 : LState} (h : AtO env s r)
    (hx : expect (lexExprP env) (.ch c) s = .ok (u, s2)) : ∃ r', Reads env (.x c) r r' ∧ s2 = ⟨r', none⟩ := by
  obtain ⟨lx, r', hl⟩ := lexExpr_some env r
  obtain ⟨ht, rfl⟩ := expect_inv (lexExprP_atO h hl) hx
  have := opLexeme_ch (lexExpr_shape hl) ht
  simp only at this
  subst this
  exact ⟨r', .expr hl rfl (by simp [Lexeme.plain]), rfl⟩

theorem expectX_inv {c : UInt8} {u : Unit} {s2 : LState} (h : AtX env s r)
    (hx : expect (lexExprP env) (.ch c) s = .ok (u, s2)) : ∃ r', Reads env (.x c) r r' ∧ s2 = ⟨r', none⟩ := by
  obtain ⟨lx, r', hl⟩ := lexExpr_some env r
  obtain ⟨ht, rfl⟩ := expect_inv (lexExprP_at h hl) hx
  have := (lexExpr_shape hl).ch ht
  simp only at this
  subst this
  exact ⟨r', .expr hl rfl (by simp [Lexeme.plain]), rfl⟩

theorem expectP_inv {c : UInt8} {u : Unit} {s2 : LState} (h : AtP env s r)
    (hx : expect (lexPathP env) (.ch c) s = .ok (u, s2)) : ∃ r', Reads env (.p c) r r' ∧ s2 = ⟨r', none⟩ := by
  obtain ⟨lx, r', hl⟩ := lexPath_some env r
  obtain ⟨ht, rfl⟩ := expect_inv (lexPathP_at h hl) hx
  have := (lexPath_shape hl).ch ht
  simp only at this
  subst this
  exact ⟨r', .path hl rfl (by simp [Lexeme.plain]), rfl⟩

theorem expectX_of {c : UInt8} (h : AtX env s r ∨ AtO env s r) (hr : Reads env (.x c) r r') :
    expect (lexExprP env) (.ch c) s = .ok ((), ⟨r', none⟩) := by
  cases hr with
  | expr hl he _ =>
    rcases h with h | h
    · exact expect_of (lexExprP_at h hl) rfl rfl
    · exact expect_of (lexExprP_atO h hl) rfl rfl

theorem expectP_of {c : UInt8} (h : AtP env s r) (hr : Reads env (.p c) r r') :
    expect (lexPathP env) (.ch c) s = .ok ((), ⟨r', none⟩) := by
  cases hr with
  | path hl he _ => exact expect_of (lexPathP_at h hl) rfl rfl

/-- After a parenthesised expression, its closing parenthesis has been read as part of the expression. -/
theorem expectO_path {c : UInt8} : AtO env s r → expect (lexPathP env) (.ch c) s = expect (lexExprP env) (.ch c) s := by
  rintro ⟨lx, r', hl, rfl⟩
  rfl
end

end JP
