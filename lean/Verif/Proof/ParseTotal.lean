import Verif.Model.Api
import Verif.Spec.WF
import Verif.Proof.Lex
/-! The parsers terminate within their fuel, never panic, report offsets within the text, and build only
well-formed trees. -/
set_option linter.unusedSimpArgs false
namespace JP

/-! ### Weakest preconditions for parser actions -/

/-- The action `m`, started in `s`, ends in a result with `Q` or an error with `E`; it does not panic and
does not run out of fuel. -/
def wp {α : Type} (m : P α) (Q : α → LState → Prop) (E : PErr → Prop) (s : LState) : Prop :=
  match m s with
  | .ok (a, s') => Q a s'
  | .err e => E e
  | _ => False

section
variable {α β : Type} {m : P α} {f : α → P β} {Q R : α → LState → Prop} {E : PErr → Prop} {s : LState}

theorem wp_bind {T : β → LState → Prop} (h : wp m (fun a s' => wp (f a) T E s') E s) :
    wp (m >>= f) T E s := by
  unfold wp at h ⊢
  show match P.bind m f s with
    | .ok (a, s') => T a s'
    | .err e => E e
    | _ => False
  unfold P.bind
  split at h
  · next h1 => rw [h1]; exact h
  · next h1 => rw [h1]; exact h
  · exact h.elim

theorem wp_pure {a : α} (h : Q a s) : wp (pure a) Q E s := h
theorem wp_fail {e : PErr} (h : E e) : wp (P.fail e) Q E s := h

theorem wp_mono (h : wp m R E s) (hr : ∀ a s', R a s' → Q a s') : wp m Q E s := by
  unfold wp at h ⊢
  split at h
  · exact hr _ _ h
  · exact h
  · exact h.elim

theorem wp_of_eq {a : α} {s' : LState} (h : m s = .ok (a, s')) (hq : Q a s') : wp m Q E s := by
  unfold wp; rw [h]; exact hq

theorem wp_unget {lx : Lexeme} {T : Unit → LState → Prop} (h : s.peek = none)
    (hq : T () { s with peek := some lx }) : wp (ungetP lx) T E s :=
  wp_of_eq (by unfold ungetP; rw [h]) hq

theorem wp_offset {T : Nat → LState → Prop} (h : T s.rd.offset s) : wp P.offset T E s := h
end

/-! ### State invariant and measure -/

/-- Offsets mentioned by an error lie within the text. -/
def PErr.In (text : Bytes) : PErr → Prop
  | .lex e => e.In text
  | .expectedErr _ off e => off ≤ text.length - 1 ∧ e.In text
  | .expected _ off _ => off ≤ text.length - 1
  | .unexpectedLexeme lx => ∀ e, lx.err = some e → e.In text
  | .inUnion _ => True
  | .unexpectedAt _ off => off ≤ text.length - 1
  | .unexpectedTokenAt _ off => off ≤ text.length - 1
  | .missingOperator off _ => off ≤ text.length - 1
  | .notIdentifier _ => True
  | .notField => True
  | .badRegexp _ off => off ≤ text.length - 1
  | .unexpectedTerm _ => True

/-- The lexer's state while parsing `text`. -/
structure Inv (env : Env) (t : Bytes) (s : LState) : Prop where
  text : s.rd.text = t
  peek : ∀ l, s.peek = some l → l.Good env t

/-- A token that can be consumed. -/
def Lexeme.weight (lx : Lexeme) : Nat := if lx.tok ≠ .eof ∧ lx.err = none then 1 else 0

/-- How much is left to parse. -/
def mu (s : LState) : Nat :=
  2 * s.rd.rest.length + match s.peek with
    | some l => l.weight
    | none => 0

variable {env : Env} {text : Bytes}

theorem Inv.offset {s : LState} (h : Inv env text s) : s.rd.offset ≤ text.length - 1 := by
  rw [← h.text]; exact s.rd.offset_lt

theorem weight_le (lx : Lexeme) : lx.weight ≤ 1 := by unfold Lexeme.weight; split <;> omega

theorem weight_one {lx : Lexeme} (h : lx.tok ≠ .eof) (h2 : lx.err = none) : lx.weight = 1 := by
  unfold Lexeme.weight; rw [if_pos ⟨h, h2⟩]

theorem Lexeme.Good.err_none {lx : Lexeme} (h : lx.Good env text) (ht : lx.tok ≠ .error) : lx.err = none := by
  have := h.err
  cases he : lx.err with
  | none => rfl
  | some e => rw [he] at this; simp at this; exact absurd this ht

theorem mu_le_rest (s : LState) : mu s ≤ 2 * s.rd.rest.length + 1 := by
  unfold mu
  split
  · next l _ => have := weight_le l; omega
  · omega

/-- What taking a token guarantees. -/
structure Taken (env : Env) (text : Bytes) (s : LState) (lx : Lexeme) (s' : LState) : Prop where
  inv : Inv env text s'
  none : s'.peek = none
  good : lx.Good env text
  mu : mu s' + lx.weight ≤ mu s
  same : ∀ l, s.peek = some l → lx = l

theorem lexWith_ok {g : Rd → Option (Lexeme × Rd)}
    (hg : ∀ r, ∃ x, g r = some x ∧ ScanOk env r.text r.rest.length x) {s : LState} (hs : Inv env text s)
    {E : PErr → Prop} : wp (lexWith g) (Taken env text s) E s := by
  unfold wp lexWith
  cases hp : s.peek with
  | some l =>
    simp only
    refine ⟨⟨hs.text, by simp⟩, rfl, hs.peek l hp, ?_, ?_⟩
    · simp [mu, hp]
    · intro l' hl; rw [hp] at hl; injection hl
  | none =>
    obtain ⟨⟨lx, r⟩, h1, h2⟩ := hg s.rd
    simp only [h1]
    have hle := h2.le
    have hlt := h2.lt
    simp only at hle hlt
    refine ⟨⟨?_, ?_⟩, rfl, ?_, ?_, ?_⟩
    · exact h2.text.trans hs.text
    · simp [hp]
    · have := h2.good; rw [hs.text] at this; exact this
    · simp only [mu, hp]
      unfold Lexeme.weight
      split
      · next h => have := hlt h.1 h.2; omega
      · omega
    · simp [hp]

theorem lexExprP_ok {s : LState} (hs : Inv env text s) {E : PErr → Prop} :
    wp (lexExprP env) (Taken env text s) E s := lexWith_ok (lexExpr_ok env) hs
theorem lexPathP_ok {s : LState} (hs : Inv env text s) {E : PErr → Prop} :
    wp (lexPathP env) (Taken env text s) E s := lexWith_ok (lexPath_ok env) hs

/-- What looking at a token guarantees. -/
structure Seen (env : Env) (text : Bytes) (s : LState) (t : Tok) (s' : LState) : Prop where
  inv : Inv env text s'
  peek : ∃ l, s'.peek = some l ∧ l.tok = t
  mu : mu s' ≤ mu s

theorem lookWith_ok {lex : P Lexeme} {s : LState} {E : PErr → Prop} (h : wp lex (Taken env text s) E s) :
    wp (lookWith lex) (Seen env text s) E s := by
  unfold lookWith
  refine wp_bind (wp_mono h ?_)
  intro lx s1 h1
  have hn := h1.none
  refine wp_bind (wp_unget hn (wp_pure ?_))
  have ht : (if lx.err.isSome = true then Tok.error else lx.tok) = lx.tok := by
    split
    · next h => exact (h1.good.err.1 h).symm
    · rfl
  refine ⟨⟨h1.inv.text, ?_⟩, ⟨lx, rfl, ht.symm⟩, ?_⟩
  · intro l hl; injection hl with hl; subst hl; exact h1.good
  · have := h1.mu
    simp only [JP.mu, hn] at this ⊢
    exact this

theorem lookExpr_ok {s : LState} (hs : Inv env text s) {E : PErr → Prop} :
    wp (lookExpr env) (Seen env text s) E s := lookWith_ok (lexExprP_ok hs)
theorem lookPath_ok {s : LState} (hs : Inv env text s) {E : PErr → Prop} :
    wp (lookPath env) (Seen env text s) E s := lookWith_ok (lexPathP_ok hs)

/-- A token seen that is neither the end nor an error is consumed by the next `lex`. -/
theorem Taken.after_seen {s s1 s2 : LState} {t : Tok} {lx : Lexeme} (h1 : Seen env text s t s1)
    (h2 : Taken env text s1 lx s2) (ht : t ≠ .eof) (ht2 : t ≠ .error) : JP.mu s2 < JP.mu s ∧ lx.tok = t := by
  obtain ⟨l, hl, hlt⟩ := h1.peek
  have := h2.same l hl
  subst this
  have hw : lx.weight = 1 := weight_one (by rw [hlt]; exact ht) (h2.good.err_none (by rw [hlt]; exact ht2))
  have a := h2.mu
  have b := h1.mu
  exact ⟨by omega, hlt⟩

/-- A token without error that is not the end has been consumed. -/
theorem Taken.lt {s s' : LState} {lx : Lexeme} (h : Taken env text s lx s') (ht : lx.tok ≠ .eof)
    (he : lx.err = .none) : JP.mu s' < JP.mu s := by
  have := h.mu
  rw [weight_one ht he] at this
  omega

theorem Taken.le {s s' : LState} {lx : Lexeme} (h : Taken env text s lx s') : JP.mu s' ≤ JP.mu s := by
  have := h.mu; omega

theorem expect_ok {lex : P Lexeme} {nt : Tok} {s : LState} (hnt : nt ≠ .eof)
    (h : wp lex (Taken env text s) (PErr.In text) s) :
    wp (expect lex nt) (fun _ s' => Inv env text s' ∧ mu s' < mu s ∧ s'.peek = none) (PErr.In text) s := by
  unfold expect
  refine wp_bind (wp_mono h ?_)
  intro lx s1 h1
  refine wp_bind (wp_offset ?_)
  split
  · next e he => exact wp_fail ⟨h1.inv.offset, h1.good.errIn e he⟩
  · next he =>
    split
    · exact wp_fail h1.inv.offset
    · next ht =>
      have ht : lx.tok = nt := by simpa using ht
      exact wp_pure ⟨h1.inv, h1.lt (by rw [ht]; exact hnt) he, h1.none⟩

/-! ### Operators -/

/-- The relabelling of `in` and `nin` by `lexOp`. -/
def opLexeme (lx : Lexeme) : Lexeme :=
  let lx := if lx.err.isSome then { lx with tok := .error } else lx
  if lx.tok = .id then
      if lx.val = .str (b! "in") then { lx with tok := .in_ }
      else if lx.val = .str (b! "nin") then { lx with tok := .nin }
      else lx
    else lx

theorem lexOp_eq : lexOp env = (lexExprP env >>= fun lx => pure (opLexeme lx)) := rfl

theorem opLexeme_idem (lx : Lexeme) : opLexeme (opLexeme lx) = opLexeme lx := by
  unfold opLexeme
  obtain ⟨t, v, e⟩ := lx
  cases e with
  | some e => simp
  | none =>
    simp only [Option.isSome_none, Bool.false_eq_true, if_false]
    by_cases h1 : t = .id
    · simp only [h1, if_true]
      by_cases h2 : v = .str (b! "in")
      · simp [h2]
      · simp only [h2, if_false]
        by_cases h3 : v = .str (b! "nin")
        · simp [h3]
        · simp [h2, h3]
    · simp [h1]

theorem opLexeme_good {lx : Lexeme} (h : lx.Good env text) : (opLexeme lx).Good env text := by
  unfold opLexeme
  by_cases he : lx.err.isSome = true
  · have ht := h.err.1 he
    obtain ⟨t, v, e⟩ := lx
    simp only at he ht
    subst ht
    simp only [he, if_true, reduceCtorEq, if_false]
    exact h
  · have ht : lx.tok ≠ .error := fun ht => he (h.err.2 ht)
    simp only [he, Bool.false_eq_true, if_false]
    split
    · next hid =>
      have hn : lx.err = none := by simpa using he
      split
      · next hv =>
        constructor <;> simp [hn, hv]
      · split
        · next hv => constructor <;> simp [hn, hv]
        · exact h
    · exact h

theorem opLexeme_weight (lx : Lexeme) : (opLexeme lx).weight ≤ lx.weight := by
  unfold opLexeme Lexeme.weight
  obtain ⟨t, v, e⟩ := lx
  cases e with
  | some e => simp
  | none =>
    simp only [Option.isSome_none, Bool.false_eq_true, if_false]
    by_cases h1 : t = .id
    · simp only [h1, if_true]
      by_cases h2 : v = .str (b! "in")
      · simp [h2]
      · simp only [h2, if_false]
        by_cases h3 : v = .str (b! "nin")
        · simp [h3]
        · simp [h2, h3]
    · simp [h1]

theorem lexOp_ok {s : LState} (hs : Inv env text s) {E : PErr → Prop} :
    wp (lexOp env) (fun lx s' => Inv env text s' ∧ s'.peek = none ∧ lx.Good env text ∧
      mu s' + lx.weight ≤ mu s ∧ opLexeme lx = lx ∧ ∀ l, s.peek = some l → lx = opLexeme l) E s := by
  rw [lexOp_eq]
  refine wp_bind (wp_mono (lexExprP_ok hs) ?_)
  intro lx s1 h1
  refine wp_pure ⟨h1.inv, h1.none, opLexeme_good h1.good, ?_, opLexeme_idem lx, ?_⟩
  · have a := h1.mu
    have b := opLexeme_weight lx
    omega
  · intro l hl; rw [h1.same l hl]

theorem lookOp_ok {s : LState} (hs : Inv env text s) {E : PErr → Prop} :
    wp (lookOp env) (fun t s' => Inv env text s' ∧ (∃ l, s'.peek = some l ∧ l.tok = t ∧ opLexeme l = l) ∧
      mu s' ≤ mu s) E s := by
  unfold lookOp
  refine wp_bind (wp_mono (lexOp_ok hs) ?_)
  rintro lx s1 ⟨hi, hn, hg, hm, hid, _⟩
  refine wp_bind (wp_unget hn (wp_pure ⟨⟨hi.text, ?_⟩, ⟨lx, rfl, rfl, hid⟩, ?_⟩))
  · intro l hl; injection hl with hl; subst hl; exact hg
  · simp only [mu, hn] at hm ⊢
    exact hm

theorem precedence_ge (op : Op) : -1 ≤ op.precedence := by cases op <;> decide

theorem tok2op_prec {t : Tok} (h : 0 ≤ (tok2op t).precedence) :
    t ≠ .eof ∧ t ≠ .error ∧ (tok2op t).isBinary = true := by
  refine ⟨?_, ?_, ?_⟩
  · rintro rfl; revert h; decide
  · rintro rfl; revert h; decide
  · revert h
    generalize tok2op t = op
    cases op <;> decide

theorem str_ok {lx : Lexeme} {s : LState} {E : PErr → Prop} {Q : Bytes → LState → Prop}
    (h : ∃ x, lx.val = .str x) (hq : ∀ x, lx.val = .str x → Q x s) : wp lx.s Q E s := by
  obtain ⟨x, hx⟩ := h
  unfold Lexeme.s
  rw [hx]
  exact hq x hx

theorem int_ok {lx : Lexeme} {s : LState} {E : PErr → Prop} {Q : Int64 → LState → Prop}
    (h : ∃ x, lx.val = .int x) (hq : ∀ x, lx.val = .int x → Q x s) : wp lx.i Q E s := by
  obtain ⟨x, hx⟩ := h
  unfold Lexeme.i
  rw [hx]
  exact hq x hx

theorem opcode_id {e : Expr} (hw : e.WF) (h : e.opcode = .id) : ∃ n, e = .name n := by
  cases hw <;> first
    | exact ⟨_, rfl⟩
    | (simp [Expr.opcode] at h; done)
    | (simp [Expr.opcode] at h; subst h; simp [Op.isUnary, Op.isBinary] at *)

theorem Exprs.WF.snoc {e : Expr} (he : e.WF) : ∀ {es : List Expr}, Exprs.WF es → Exprs.WF (es ++ [e])
  | [], _ => .cons _ _ he .nil
  | _ :: _, .cons _ _ h1 h2 => .cons _ _ h1 (Exprs.WF.snoc he h2)

theorem Exprs.WF.append : ∀ {es fs : List Expr}, Exprs.WF es → Exprs.WF fs → Exprs.WF (es ++ fs)
  | [], _, _, h => h
  | _ :: _, _, .cons _ _ h1 h2, h => .cons _ _ h1 (Exprs.WF.append h2 h)

/-! ### Expressions -/

/-- A tree that uses up at least one token. -/
def ExprPost (env : Env) (text : Bytes) (n : Nat) (e : Expr) (s' : LState) : Prop :=
  Inv env text s' ∧ e.size + mu s' ≤ n ∧ e.WF

theorem Expr.size_pos (e : Expr) : 1 ≤ e.size := by cases e <;> simp [Expr.size]

@[simp] theorem Exprs.size_append : ∀ (es fs : List Expr), Exprs.size (es ++ fs) = Exprs.size es + Exprs.size fs
  | [], fs => by simp [Exprs.size]
  | e :: es, fs => by simp [Exprs.size, Exprs.size_append es fs]; omega

mutual
theorem pExpr_ok : ∀ (f : Nat) (pri : Int) (s : LState), 0 ≤ pri → Inv env text s → 8 * mu s + 3 ≤ f →
    wp (pExpr env f pri) (ExprPost env text (mu s)) (PErr.In text) s
  | 0, _, _, _, _, h => by omega
  | f + 1, pri, s, hp, hs, hf => by
    unfold pExpr
    refine wp_bind (wp_mono (pPrimary_ok f s hs (by omega)) ?_)
    rintro e s1 ⟨h1, h2, h3⟩
    have hpos := e.size_pos
    refine wp_mono (pExprLoop_ok f pri e s1 hp h1 h3 (by omega)) ?_
    rintro e' s2 ⟨h4, h5, h6⟩
    exact ⟨h4, by omega, h6⟩
theorem pExprLoop_ok : ∀ (f : Nat) (pri : Int) (e : Expr) (s : LState), 0 ≤ pri → Inv env text s →
    e.WF → 8 * mu s + 1 ≤ f →
    wp (pExprLoop env f pri e) (ExprPost env text (mu s + e.size)) (PErr.In text) s
  | 0, _, _, _, _, _, _, h => by omega
  | f + 1, pri, e, s, hp, hs, he, hf => by
    unfold pExprLoop
    refine wp_bind (wp_mono (lookOp_ok hs) ?_)
    rintro t s1 ⟨hi1, ⟨l, hl, hlt, hid⟩, hm1⟩
    split
    · next hge =>
      obtain ⟨t1, t2, t3⟩ := tok2op_prec (t := t) (by omega)
      refine wp_bind (wp_mono (lexOp_ok hi1) ?_)
      rintro lx s2 ⟨hi2, hn2, hg2, hm2, _, hsame⟩
      have := hsame l hl
      rw [hid] at this
      subst this
      have herr : lx.err = none := hg2.err_none (by rw [hlt]; exact t2)
      rw [weight_one (by rw [hlt]; exact t1) herr] at hm2
      rw [herr]
      simp only
      have hpr := precedence_ge (tok2op lx.tok)
      refine wp_bind (wp_mono (pExpr_ok f _ s2 (by simp only [Op.associativity]; omega) hi2 (by omega)) ?_)
      rintro r s3 ⟨hi3, hm3, hr⟩
      refine wp_mono (pExprLoop_ok f pri _ s3 hp hi3 (.binary _ _ _ (by rw [hlt]; exact t3) he hr) (by omega)) ?_
      rintro e' s4 ⟨h4, h5, h6⟩
      exact ⟨h4, by simp only [Expr.size, Exprs.size] at h5; omega, h6⟩
    · exact wp_pure ⟨hi1, by omega, he⟩
theorem pPrimary_ok : ∀ (f : Nat) (s : LState), Inv env text s → 8 * mu s + 2 ≤ f →
    wp (pPrimary env f) (ExprPost env text (mu s)) (PErr.In text) s
  | 0, _, _, h => by omega
  | f + 1, s, hs, hf => by
    unfold pPrimary
    refine wp_bind (wp_mono (pPrimary1_ok f s hs (by omega)) ?_)
    rintro e s1 ⟨h1, h2, h3⟩
    have hpos := e.size_pos
    refine wp_mono (pPrimaryLoop_ok f e s1 h1 h3 (by omega)) ?_
    rintro e' s2 ⟨h4, h5, h6⟩
    exact ⟨h4, by omega, h6⟩
theorem pPrimaryLoop_ok : ∀ (f : Nat) (e : Expr) (s : LState), Inv env text s → e.WF →
    8 * mu s + 1 ≤ f →
    wp (pPrimaryLoop env f e) (ExprPost env text (mu s + e.size)) (PErr.In text) s
  | 0, _, _, _, _, h => by omega
  | f + 1, e, s, hs, he, hf => by
    unfold pPrimaryLoop
    refine wp_bind (wp_mono (lookExpr_ok hs) ?_)
    intro t s1 h1
    split
    · next ht =>
      split
      · exact wp_fail trivial
      · next hid =>
        have hid : e.opcode = .id := by simpa using hid
        obtain ⟨n, rfl⟩ := opcode_id he hid
        refine wp_bind (wp_mono (lexExprP_ok h1.inv) ?_)
        intro lx s2 h2
        obtain ⟨hm2, _⟩ := Taken.after_seen h1 h2 (by simp [ht]) (by simp [ht])
        refine wp_bind (wp_mono (pApplication_ok f .call (.ch (c! ')')) [.name n] s2 h2.inv (by simp)
          (fun es hes => .call n es hes) (by omega)) ?_)
        rintro e2 s3 ⟨h4, h5, h6⟩
        have hpos := e2.size_pos
        simp only [Expr.size, Exprs.size] at h5 ⊢
        refine wp_mono (pPrimaryLoop_ok f e2 s3 h4 h6 (by omega)) ?_
        rintro e' s4 ⟨h7, h8, h9⟩
        exact ⟨h7, by omega, h9⟩
    · split
      · next ht =>
        refine wp_bind (wp_mono (lexExprP_ok h1.inv) ?_)
        intro lx s2 h2
        obtain ⟨hm2, _⟩ := Taken.after_seen h1 h2 (by simp [ht]) (by simp [ht])
        refine wp_bind (wp_mono (pExpr_ok f 0 s2 (by omega) h2.inv (by omega)) ?_)
        rintro ix s3 ⟨h4, h5, h6⟩
        refine wp_bind (wp_mono (expect_ok (by simp) (lexExprP_ok h4)) ?_)
        rintro _ s4 ⟨h7, h8, _⟩
        refine wp_mono (pPrimaryLoop_ok f _ s4 h7 (.binary _ _ _ rfl he h6) (by omega)) ?_
        rintro e' s5 ⟨h10, h11, h12⟩
        exact ⟨h10, by simp only [Expr.size, Exprs.size] at h11; omega, h12⟩
      · split
        · next ht =>
          refine wp_bind (wp_mono (lexExprP_ok h1.inv) ?_)
          intro lx s2 h2
          obtain ⟨hm2, _⟩ := Taken.after_seen h1 h2 (by simp [ht]) (by simp [ht])
          refine wp_bind (wp_mono (lexExprP_ok h2.inv) ?_)
          intro lx3 s3 h3
          split
          · next er her => exact wp_fail (h3.good.errIn er her)
          · next her =>
            split
            · exact wp_fail trivial
            · next hid =>
              have hid : lx3.tok = .id := by simpa using hid
              refine wp_bind (str_ok (h3.good.str (.inl hid)) ?_)
              intro name _
              have := h3.le
              refine wp_mono (pPrimaryLoop_ok f _ s3 h3.inv (.dot _ _ he) (by omega)) ?_
              have hlt := h3.lt (by simp [hid]) her
              rintro e' s5 ⟨h10, h11, h12⟩
              exact ⟨h10, by simp only [Expr.size, Exprs.size] at h11; omega, h12⟩
        · have := h1.mu
          exact wp_pure ⟨h1.inv, by omega, he⟩
theorem pApplication_ok : ∀ (f : Nat) (op : Op) (stop : Tok) (args : List Expr) (s : LState), Inv env text s →
    stop ≠ .eof → (∀ es, Exprs.WF es → Expr.WF (.inner op (args ++ es))) →
    8 * mu s + 5 ≤ f →
    wp (pApplication env f op stop args) (ExprPost env text (mu s + Exprs.size args)) (PErr.In text) s
  | 0, _, _, _, _, _, _, _, h => by omega
  | f + 1, op, stop, args, s, hs, hstop, hop, hf => by
    unfold pApplication
    refine wp_bind (wp_mono (lookExpr_ok hs) ?_)
    intro t s1 h1
    have hm1 := h1.mu
    have hk : ∀ es s2, Inv env text s2 → Exprs.size es + mu s2 ≤ mu s → Exprs.WF es →
        wp (do expect (lexExprP env) stop; pure (.inner op (args ++ es))) (ExprPost env text (mu s + Exprs.size args))
          (PErr.In text) s2 := by
      intro es s2 a b hes
      refine wp_bind (wp_mono (expect_ok hstop (lexExprP_ok a)) ?_)
      rintro _ s3 ⟨h7, h8, _⟩
      exact wp_pure ⟨h7, by simp only [Expr.size, Exprs.size_append]; omega, hop es hes⟩
    dsimp only
    split
    · refine wp_bind (wp_mono (pExprList_ok f args s1 h1.inv (by omega)) ?_)
      rintro r s2 ⟨a, b, es, rfl, hes, hsz⟩
      exact hk es s2 a (by omega) hes
    · have := hk [] s1 h1.inv (by simp only [Exprs.size]; omega) .nil
      rw [List.append_nil] at this
      exact wp_bind (wp_pure this)
theorem pExprList_ok : ∀ (f : Nat) (list : List Expr) (s : LState), Inv env text s → 8 * mu s + 4 ≤ f →
    wp (pExprList env f list) (fun r s' => Inv env text s' ∧ mu s' < mu s ∧
      ∃ es, r = list ++ es ∧ Exprs.WF es ∧ Exprs.size es + mu s' ≤ mu s) (PErr.In text) s
  | 0, _, _, _, h => by omega
  | f + 1, list, s, hs, hf => by
    unfold pExprList
    refine wp_bind (wp_mono (pExpr_ok f 0 s (by omega) hs (by omega)) ?_)
    rintro e s1 ⟨h1, h2, h3⟩
    have hpos := e.size_pos
    refine wp_bind (wp_mono (lookExpr_ok h1) ?_)
    intro t s2 h4
    have := h4.mu
    split
    · exact wp_pure ⟨h4.inv, by omega, [e], rfl, .cons _ _ h3 .nil, by simp only [Exprs.size]; omega⟩
    · next ht =>
      have ht : t = .ch (c! ',') := by simpa using ht
      refine wp_bind (wp_mono (lexExprP_ok h4.inv) ?_)
      intro lx s3 h5
      obtain ⟨hm5, _⟩ := Taken.after_seen h4 h5 (by simp [ht]) (by simp [ht])
      refine wp_mono (pExprList_ok f _ s3 h5.inv (by omega)) ?_
      rintro r s4 ⟨a, b, es, rfl, hes, hsz⟩
      exact ⟨a, by omega, e :: es, by simp, .cons _ _ h3 hes, by simp only [Exprs.size]; omega⟩
theorem pPrimary1_ok : ∀ (f : Nat) (s : LState), Inv env text s → 8 * mu s + 1 ≤ f →
    wp (pPrimary1 env f) (ExprPost env text (mu s)) (PErr.In text) s
  | 0, _, _, h => by omega
  | f + 1, s, hs, hf => by
    unfold pPrimary1
    refine wp_bind (wp_mono (lexExprP_ok hs) ?_)
    intro lx s1 h1
    split
    · next er her => exact wp_fail (h1.good.errIn er her)
    · next her =>
      split
      · next ht =>
        have hm := h1.lt (by simp [ht]) her
        refine wp_bind (str_ok (h1.good.str (.inl ht)) ?_)
        intro x _
        repeat' split
        · exact wp_pure ⟨h1.inv, by simp only [Expr.size]; omega, .bool _⟩
        · exact wp_pure ⟨h1.inv, by simp only [Expr.size]; omega, .bool _⟩
        · exact wp_pure ⟨h1.inv, by simp only [Expr.size]; omega, .null⟩
        · exact wp_pure ⟨h1.inv, by simp only [Expr.size]; omega, .name _⟩
      · next ht =>
        have hm := h1.lt (by simp [ht]) her
        refine wp_bind (int_ok (h1.good.int ht) ?_)
        intro x _
        exact wp_pure ⟨h1.inv, by simp only [Expr.size]; omega, .int _⟩
      · next ht =>
        have hm := h1.lt (by simp [ht]) her
        obtain ⟨x, hx, hl⟩ := h1.good.real ht
        refine wp_bind ?_
        unfold Lexeme.f
        rw [hx]
        exact wp_pure (wp_pure ⟨h1.inv, by simp only [Expr.size]; omega, .float _ hl⟩)
      · next ht =>
        have hm := h1.lt (by simp [ht]) her
        refine wp_bind (str_ok (h1.good.str (.inr (.inl ht))) ?_)
        intro x _
        exact wp_pure ⟨h1.inv, by simp only [Expr.size]; omega, .str _⟩
      · next c ht =>
        have hm := h1.lt (by simp [ht]) her
        split
        · refine wp_bind (wp_mono (pPrimary_ok f s1 h1.inv (by omega)) ?_)
          rintro e s2 ⟨h2, h3, h4⟩
          exact wp_pure ⟨h2, by simp only [Expr.size, Exprs.size]; omega, .unary _ _ rfl h4⟩
        split
        · refine wp_bind (wp_mono (pPrimary_ok f s1 h1.inv (by omega)) ?_)
          rintro e s2 ⟨h2, h3, h4⟩
          exact wp_pure ⟨h2, by simp only [Expr.size, Exprs.size]; omega, .unary _ _ rfl h4⟩
        split
        · refine wp_bind (wp_offset ?_)
          obtain ⟨g1, g2, g3, g4⟩ := lexRegexpGo_ok (c! '/') s1.rd.rest s1.rd.before []
          generalize hy : lexRegexpGo (c! '/') s1.rd.before [] s1.rd.rest = y at g1 g2 g3 g4
          obtain ⟨lx2, r2⟩ := y
          simp only at g1 g2 g3 g4 ⊢
          refine wp_bind (wp_of_eq (a := lx2) (s' := { s1 with rd := r2 }) (by simp [lexRegexp, hy]) ?_)
          have hi2 : Inv env text { s1 with rd := r2 } := by
            refine ⟨g1.trans h1.inv.text, ?_⟩
            intro l hl
            exact h1.inv.peek l hl
          have hm2 : mu { s1 with rd := r2 } ≤ mu s1 := by
            simp only [mu, h1.none]; omega
          split
          · next er her => exact wp_fail (g4 _ er her)
          · refine wp_bind (str_ok g3 ?_)
            intro x _
            split
            · exact wp_pure ⟨hi2, by simp only [Expr.size]; omega, .re _⟩
            · exact wp_fail h1.inv.offset
        split
        · exact wp_pure ⟨h1.inv, by simp only [Expr.size]; omega, .current⟩
        split
        · exact wp_pure ⟨h1.inv, by simp only [Expr.size]; omega, .root⟩
        split
        · refine wp_bind (wp_mono (pExpr_ok f 0 s1 (by omega) h1.inv (by omega)) ?_)
          rintro e s2 ⟨h2, h3, h4⟩
          refine wp_bind (wp_mono (expect_ok (by simp) (lexExprP_ok h2)) ?_)
          rintro _ s3 ⟨h7, h8, _⟩
          exact wp_pure ⟨h7, by omega, h4⟩
        split
        · refine wp_mono (pApplication_ok f .array (.ch (c! ']')) [] s1 h1.inv (by simp)
            (fun es hes => .array es hes) (by omega)) ?_
          rintro e s2 ⟨h2, h3, h4⟩
          exact ⟨h2, by simp only [Exprs.size] at h3; omega, h4⟩
        · exact wp_fail trivial
      · exact wp_fail trivial
end

end JP
