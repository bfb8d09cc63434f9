import Verif.Proof.BlameSpot
import Verif.Proof.ParseSound
/-! The parsers: what their messages say is true of the text. -/
set_option linter.unusedSimpArgs false
namespace JP
open Spec
variable {env : Env} {text : Bytes}

/-- Partial correctness of a parser action. -/
def wpe {α : Type} (m : P α) (Q : α → LState → Prop) (E : PErr → Prop) (s : LState) : Prop :=
  match m s with
  | .ok (a, s') => Q a s'
  | .err e => E e
  | _ => True

section
variable {α β : Type} {m : P α} {f : α → P β} {Q R : α → LState → Prop} {E : PErr → Prop} {s : LState}

theorem wpe_bind {T : β → LState → Prop} (h : wpe m (fun a s' => wpe (f a) T E s') E s) : wpe (m >>= f) T E s := by
  unfold wpe at h ⊢
  show match P.bind m f s with
    | .ok (a, s') => T a s'
    | .err e => E e
    | _ => True
  unfold P.bind
  cases hm : m s with
  | ok x => rw [hm] at h; exact h
  | err e => rw [hm] at h; exact h
  | panic e => trivial
  | stuck => trivial

theorem wpe_pure {a : α} (h : Q a s) : wpe (pure a) Q E s := h
theorem wpe_fail {e : PErr} (h : E e) : wpe (P.fail e) Q E s := h
theorem wpe_stuck : wpe (P.stuck : P α) Q E s := trivial
theorem wpe_panic {e : String} : wpe (P.panic e : P α) Q E s := trivial
theorem wpe_offset {T : Nat → LState → Prop} (h : T s.rd.offset s) : wpe P.offset T E s := h

theorem wpe_mono (h : wpe m R E s) (hr : ∀ a s', R a s' → Q a s') : wpe m Q E s := by
  unfold wpe at h ⊢
  split at h
  · exact hr _ _ h
  · exact h
  · trivial

theorem wpe_s {lx : Lexeme} {T : Bytes → LState → Prop} (h : ∀ b, T b s) : wpe lx.s T E s := by
  unfold Lexeme.s
  split
  · exact h _
  · trivial
theorem wpe_i {lx : Lexeme} {T : Int64 → LState → Prop} (h : ∀ b, T b s) : wpe lx.i T E s := by
  unfold Lexeme.i
  split
  · exact h _
  · trivial
theorem wpe_f {lx : Lexeme} {T : F64 → LState → Prop} (h : ∀ b, T b s) : wpe lx.f T E s := by
  unfold Lexeme.f
  split
  · exact h _
  · trivial
end

/-- The state is within the text, and what is known of the token ahead. `K` holds of it. -/
structure Here (env : Env) (text : Bytes) (K : Tok → Prop) (s : LState) : Prop where
  text : s.rd.text = text
  peek : ∀ l, s.peek = some l → Spot env l s.rd ∧ K l.tok

/-- Any token. -/
abbrev Any : Tok → Prop := fun _ => True
/-- A token of paths. -/
abbrev NotReal : Tok → Prop := fun t => t ≠ .real

theorem Here.any {K : Tok → Prop} {s : LState} (h : Here env text K s) : Here env text Any s :=
  ⟨h.text, fun l hl => ⟨(h.peek l hl).1, trivial⟩⟩

theorem Here.bare {K K' : Tok → Prop} {s : LState} (h : Here env text K s) (hp : s.peek = none) : Here env text K' s :=
  ⟨h.text, fun l hl => by rw [hp] at hl; cases hl⟩

/-- The messages that are true. -/
abbrev True_ (env : Env) (text : Bytes) : PErr → Prop := fun e => Message env text (e.text env)

/-- A token has been taken. -/
structure Got (env : Env) (text : Bytes) (K : Tok → Prop) (lx : Lexeme) (s : LState) : Prop where
  here : Here env text K s
  none : s.peek = none
  spot : Spot env lx s.rd
  kind : K lx.tok

theorem lexExprP_blame {s : LState} {E} (h : Here env text Any s) : wpe (lexExprP env) (Got env text Any) E s := by
  unfold wpe lexExprP lexWith
  cases hp : s.peek with
  | some l => exact ⟨⟨h.text, fun _ hl => by cases hl⟩, rfl, (h.peek l hp).1, trivial⟩
  | none =>
    cases hl : lexExpr env s.rd with
    | none => trivial
    | some x =>
      obtain ⟨lx, r⟩ := x
      obtain ⟨y, hy, ok⟩ := lexExpr_ok env s.rd
      rw [hl] at hy; cases hy
      exact ⟨⟨ok.text.trans h.text, fun _ h' => by cases h'⟩, rfl, spot_lexExpr hl, trivial⟩

theorem lexPathP_blame {s : LState} {E} (h : Here env text NotReal s) : wpe (lexPathP env) (Got env text NotReal) E s := by
  unfold wpe lexPathP lexWith
  cases hp : s.peek with
  | some l => exact ⟨⟨h.text, fun _ hl => by cases hl⟩, rfl, (h.peek l hp).1, (h.peek l hp).2⟩
  | none =>
    cases hl : lexPath env s.rd with
    | none => trivial
    | some x =>
      obtain ⟨lx, r⟩ := x
      obtain ⟨y, hy, ok⟩ := lexPath_ok env s.rd
      rw [hl] at hy; cases hy
      refine ⟨⟨ok.text.trans h.text, fun _ h' => by cases h'⟩, rfl, spot_lexPath hl, ?_⟩
      intro hr
      by_cases he : lx.err = none
      · obtain ⟨g, w, _, _, _, h3⟩ := lexPath_inv (b := s.rd.before) (text := s.rd.rest) hl he (by rw [hr]; simp)
        rcases h3 with h3 | ⟨h3, v, rfl, h4⟩
        · generalize r.rest = nx at h3
          cases h3 <;> simp_all [Lexeme.plain, strTok, intTok, nameTok]
        · simp [strTok] at hr
      · have := (spot_lexPath hl).err.1 (by cases hx : lx.err <;> simp_all)
        rw [this] at hr; cases hr

/-- A token has been looked at. -/
structure Ahead (env : Env) (text : Bytes) (K : Tok → Prop) (t : Tok) (s : LState) : Prop where
  here : Here env text K s
  ahead : ∃ l, s.peek = some l ∧ l.tok = t

theorem Ahead.spot {K : Tok → Prop} {t : Tok} {s : LState} (h : Ahead env text K t s) : ∃ l, l.tok = t ∧ Spot env l s.rd := by
  obtain ⟨l, hl, ht⟩ := h.ahead
  exact ⟨l, ht, (h.here.peek l hl).1⟩

theorem unget_blame {K : Tok → Prop} {lx : Lexeme} {s : LState} {E} (h : Got env text K lx s) :
    wpe (ungetP lx) (fun _ s' => Ahead env text K lx.tok s') E s := by
  unfold wpe ungetP
  rw [h.none]
  exact ⟨⟨h.here.text, fun l hl => by cases hl; exact ⟨h.spot, h.kind⟩⟩, lx, rfl, rfl⟩

theorem lookWith_blame {K : Tok → Prop} {lex : P Lexeme} {s : LState} {E} (h : wpe lex (Got env text K) E s) :
    wpe (lookWith lex) (Ahead env text K) E s := by
  unfold lookWith
  refine wpe_bind (wpe_mono h ?_)
  intro lx s1 h1
  refine wpe_bind (wpe_mono (unget_blame h1) ?_)
  intro _ s2 h2
  refine wpe_pure ?_
  split
  · next he => rw [← h1.spot.err.1 he]; exact h2
  · exact h2

theorem lookExpr_blame {s : LState} {E} (h : Here env text Any s) : wpe (lookExpr env) (Ahead env text Any) E s :=
  lookWith_blame (lexExprP_blame h)

theorem lookPath_blame {s : LState} {E} (h : Here env text NotReal s) : wpe (lookPath env) (Ahead env text NotReal) E s :=
  lookWith_blame (lexPathP_blame h)

theorem lexOp_blame {s : LState} {E} (h : Here env text Any s) : wpe (lexOp env) (Got env text Any) E s := by
  rw [lexOp_eq]
  refine wpe_bind (wpe_mono (lexExprP_blame h) ?_)
  intro lx s1 h1
  exact wpe_pure ⟨h1.here, h1.none, h1.spot.op, trivial⟩

theorem lookOp_blame {s : LState} {E} (h : Here env text Any s) : wpe (lookOp env) (Ahead env text Any) E s := by
  unfold lookOp
  refine wpe_bind (wpe_mono (lexOp_blame h) ?_)
  intro lx s1 h1
  refine wpe_bind (wpe_mono (unget_blame h1) ?_)
  intro _ s2 h2
  exact wpe_pure h2

theorem Spot.textMsg {lx : Lexeme} {s : LState} (h : Spot env lx s.rd) (ht : s.rd.text = text) {e : LexErr} (he : lx.err = some e) :
    LexMessage env text (e.text env) := ht ▸ h.msg e he

theorem Got.lex {K : Tok → Prop} {lx : Lexeme} {s : LState} (h : Got env text K lx s) {e : LexErr} (he : lx.err = some e) :
    True_ env text (.lex e) := .lex _ (h.spot.textMsg h.here.text he)

theorem text_offset (off : Nat) : offsetText off = b! "offset " ++ natToBytes off := rfl

theorem tok_text_ch {t : Tok} {c : UInt8} (h : t.text = [c]) : t = .ch c := by
  cases t with
  | ch d =>
    simp only [Tok.text, encodeRune] at h
    repeat' split at h
    all_goals simp at h
    rw [h]
  | _ =>
    exfalso
    have := congrArg List.length h
    simp [Tok.text] at this

theorem quote_ch {c : UInt8} (hc : c ∈ b! "$])") : goQuote env (Tok.ch c).text = b! "\"" ++ [c] ++ b! "\"" := by
  simp at hc
  rcases hc with rfl | rfl | rfl <;> rfl

theorem expect_blame {K K' : Tok → Prop} {lex : P Lexeme} {s : LState} {c : UInt8} (hc : c ∈ b! "$])")
    (h : wpe lex (Got env text K) (True_ env text) s) :
    wpe (expect lex (.ch c)) (fun _ s' => Here env text K' s' ∧ s'.peek = none) (True_ env text) s := by
  unfold expect
  refine wpe_bind (wpe_mono h ?_)
  intro lx s1 h1
  refine wpe_bind (wpe_offset ?_)
  split
  · next e he =>
    refine wpe_fail ?_
    show Message env text (PErr.text env _)
    have : PErr.text env (.expectedErr (.ch c) s1.rd.offset e) =
        b! "expected \"" ++ [c] ++ b! "\" at offset " ++ natToBytes s1.rd.offset ++ b! ", got " ++ e.text env := by
      simp [PErr.text, quote_ch hc, text_offset]
    rw [this]
    refine .expectedErr c s1.rd.offset _ _ hc ?_ (numeral_natToBytes _) (h1.spot.textMsg h1.here.text he)
    rw [← h1.here.text]; exact offset_le _
  · split
    · next hne =>
      refine wpe_fail ?_
      show Message env text (PErr.text env _)
      have : PErr.text env (.expected (.ch c) s1.rd.offset lx.tok) =
          b! "expected \"" ++ [c] ++ b! "\" at offset " ++ natToBytes s1.rd.offset ++ b! ", got " ++ lx.tok.text := by
        simp [PErr.text, quote_ch hc, text_offset]
      rw [this]
      refine .expected c s1.rd.offset _ _ hc (numeral_natToBytes _) ?_ (fun e => hne (tok_text_ch e))
      rw [← h1.here.text]; exact h1.spot.named
    · exact wpe_pure ⟨h1.here.bare h1.none, h1.none⟩

theorem before_text {r : Rd} {c : UInt8} {b : Bytes} (h : r.before = c :: b) : r.text = b.reverse ++ c :: r.rest := by
  simp [Rd.text, h]

theorem lexRegexp_err : ∀ {b acc rest : Bytes} {lx : Lexeme} {r : Rd} {e : LexErr}, lexRegexpGo (c! '/') b acc rest = (lx, r) → lx.err = some e →
    e = .unclosedRE ∧ NoBare (c! '/') rest
  | b, acc, [], lx, r, e, h, he => by
    simp [lexRegexpGo] at h
    obtain ⟨rfl, rfl⟩ := h
    simp at he
    exact ⟨he.symm, NoBare.of_not_mem (by simp)⟩
  | b, acc, [c], lx, r, e, h, he => by
    simp only [lexRegexpGo] at h
    split at h
    · obtain ⟨rfl, rfl⟩ := h; simp at he
    · next hc =>
      cases h
      simp at he
      exact ⟨he.symm, NoBare.of_not_mem (by simp at hc ⊢; exact fun e => hc e.symm)⟩
  | b, acc, c :: d :: ds, lx, r, e, h, he => by
    simp only [lexRegexpGo] at h
    split at h
    · cases h; simp at he
    · next hc =>
      split at h
      · next hd =>
        have := lexRegexp_err h he
        simp at hd
        obtain ⟨rfl, rfl⟩ := hd
        refine ⟨this.1, ?_⟩
        have h2 : NoBare (c! '/') [c! '\\', c! '/'] := by
          intro a b e
          cases a with
          | nil => simp at e
          | cons x a =>
            cases a with
            | nil => simp at e; exact ⟨[], by simp [e.1]⟩
            | cons y a => simp at e
        exact NoBare.append h2 this.2
      · have := lexRegexp_err h he
        refine ⟨this.1, ?_⟩
        have h2 : NoBare (c! '/') [c] := NoBare.of_not_mem (by simp at hc ⊢; exact fun e => hc e.symm)
        exact NoBare.append h2 this.2

/-! ### Expressions -/

theorem unexpectedTerm_blame {K : Tok → Prop} {lx : Lexeme} {s : LState} (h : Got env text K lx s) :
    True_ env text (.unexpectedTerm lx.tok) := by
  refine .term s.rd.offset _ ?_
  rw [← h.here.text]; exact h.spot.named

/-- The text has the bytes of a token that is ahead. -/
theorem Ahead.ch {K : Tok → Prop} {c : UInt8} {s : LState} (h : Ahead env text K (.ch c) s) : ∃ a b, text = a ++ c :: b := by
  obtain ⟨l, hl, hs⟩ := h.spot
  obtain ⟨b, hb⟩ := hs.ch c hl
  exact ⟨b.reverse, s.rd.rest, by rw [← h.here.text]; exact before_text hb⟩

theorem Got.chIn {K : Tok → Prop} {lx : Lexeme} {c : UInt8} {s : LState} (h : Got env text K lx s) (hc : lx.tok = .ch c) :
    ∃ a b, text = a ++ c :: b := by
  obtain ⟨b, hb⟩ := h.spot.ch c hc
  exact ⟨b.reverse, s.rd.rest, by rw [← h.here.text]; exact before_text hb⟩

theorem opText_id {op : Op} (h : op ≠ .id) : op.text ≠ b! "identifier" := by
  cases op <;> first | exact absurd rfl h | decide

theorem blame_expr (env : Env) (text : Bytes) : ∀ f,
    (∀ pri s, Here env text Any s → wpe (pExpr env f pri) (fun _ s' => Here env text Any s') (True_ env text) s) ∧
    (∀ pri e s, Here env text Any s → wpe (pExprLoop env f pri e) (fun _ s' => Here env text Any s') (True_ env text) s) ∧
    (∀ s, Here env text Any s → wpe (pPrimary env f) (fun _ s' => Here env text Any s') (True_ env text) s) ∧
    (∀ e s, Here env text Any s → wpe (pPrimaryLoop env f e) (fun _ s' => Here env text Any s') (True_ env text) s) ∧
    (∀ op c args s, c ∈ b! "$])" → Here env text Any s → wpe (pApplication env f op (.ch c) args) (fun _ s' => Here env text Any s') (True_ env text) s) ∧
    (∀ list s, Here env text Any s → wpe (pExprList env f list) (fun _ s' => Here env text Any s') (True_ env text) s) ∧
    (∀ s, Here env text Any s → wpe (pPrimary1 env f) (fun _ s' => Here env text Any s') (True_ env text) s) := by
  intro f
  induction f with
  | zero =>
    refine ⟨?_, ?_, ?_, ?_, ?_, ?_, ?_⟩
    all_goals intros
    · rw [pExpr]; exact wpe_stuck
    · rw [pExprLoop]; exact wpe_stuck
    · rw [pPrimary]; exact wpe_stuck
    · rw [pPrimaryLoop]; exact wpe_stuck
    · rw [pApplication]; exact wpe_stuck
    · rw [pExprList]; exact wpe_stuck
    · rw [pPrimary1]; exact wpe_stuck
  | succ f ih =>
    obtain ⟨iExpr, iLoop, iPrimary, iPLoop, iApp, iList, iP1⟩ := ih
    refine ⟨?_, ?_, ?_, ?_, ?_, ?_, ?_⟩
    · intro pri s hs
      rw [pExpr]
      exact wpe_bind (wpe_mono (iPrimary s hs) (fun e s1 h1 => iLoop pri e s1 h1))
    · intro pri e s hs
      rw [pExprLoop]
      refine wpe_bind (wpe_mono (lookOp_blame hs) ?_)
      intro t s1 h1
      split
      · refine wpe_bind (wpe_mono (lexOp_blame h1.here) ?_)
        intro lx s2 h2
        split
        · next he => exact wpe_fail (h2.lex he)
        · refine wpe_bind (wpe_mono (iExpr _ s2 h2.here) ?_)
          intro right s3 h3
          exact iLoop _ _ s3 h3
      · exact wpe_pure h1.here
    · intro s hs
      rw [pPrimary]
      exact wpe_bind (wpe_mono (iP1 s hs) (fun e s1 h1 => iPLoop e s1 h1))
    · intro e s hs
      rw [pPrimaryLoop]
      refine wpe_bind (wpe_mono (lookExpr_blame hs) ?_)
      intro t s1 h1
      split
      · next ht =>
        subst ht
        split
        · next hop =>
          obtain ⟨a, b, hab⟩ := h1.ch
          exact wpe_fail (.notName a b _ hab (opText_id hop))
        · refine wpe_bind (wpe_mono (lexExprP_blame h1.here) ?_)
          intro lx s2 h2
          refine wpe_bind (wpe_mono (iApp _ _ _ s2 (by decide) h2.here) ?_)
          intro e s3 h3
          exact iPLoop _ s3 h3
      · split
        · refine wpe_bind (wpe_mono (lexExprP_blame h1.here) ?_)
          intro lx s2 h2
          refine wpe_bind (wpe_mono (iExpr _ s2 h2.here) ?_)
          intro index s3 h3
          refine wpe_bind (wpe_mono (expect_blame (K' := Any) (by decide) (lexExprP_blame h3)) ?_)
          intro _ s4 h4
          exact iPLoop _ s4 h4.1
        · split
          · next ht =>
            subst ht
            obtain ⟨a, b, hab⟩ := h1.ch
            refine wpe_bind (wpe_mono (lexExprP_blame h1.here) ?_)
            intro lx0 s2 h2
            refine wpe_bind (wpe_mono (lexExprP_blame h2.here) ?_)
            intro lx s3 h3
            split
            · next he => exact wpe_fail (h3.lex he)
            · split
              · exact wpe_fail (.notField a b hab)
              · exact wpe_bind (wpe_s (fun name => iPLoop _ s3 h3.here))
          · exact wpe_pure h1.here
    · intro op c args s hc hs
      rw [pApplication]
      refine wpe_bind (wpe_mono (lookExpr_blame hs) ?_)
      intro t s1 h1
      have tail : ∀ args s2, Here env text Any s2 → wpe (do
          expect (lexExprP env) (.ch c)
          pure (Expr.inner op args)) (fun _ s' => Here env text Any s') (True_ env text) s2 := by
        intro args s2 h2
        refine wpe_bind (wpe_mono (expect_blame (K' := Any) hc (lexExprP_blame h2)) ?_)
        intro _ s3 h3
        exact wpe_pure h3.1
      dsimp only
      split
      · exact wpe_bind (wpe_mono (iList _ s1 h1.here) (fun args s2 h2 => tail args s2 h2))
      · exact tail args s1 h1.here
    · intro list s hs
      rw [pExprList]
      refine wpe_bind (wpe_mono (iExpr _ s hs) ?_)
      intro e s1 h1
      refine wpe_bind (wpe_mono (lookExpr_blame h1) ?_)
      intro t s2 h2
      split
      · exact wpe_pure h2.here
      · refine wpe_bind (wpe_mono (lexExprP_blame h2.here) ?_)
        intro lx s3 h3
        exact iList _ s3 h3.here
    · intro s hs
      rw [pPrimary1]
      refine wpe_bind (wpe_mono (lexExprP_blame hs) ?_)
      intro lx s1 h1
      split
      · next he => exact wpe_fail (h1.lex he)
      · have hterm := unexpectedTerm_blame h1
        split
        · refine wpe_bind (wpe_s (fun id => ?_))
          repeat' split
          all_goals exact wpe_pure h1.here
        · exact wpe_bind (wpe_i (fun n => wpe_pure h1.here))
        · exact wpe_bind (wpe_f (fun n => wpe_pure h1.here))
        · exact wpe_bind (wpe_s (fun n => wpe_pure h1.here))
        · next c hc =>
          split
          · exact wpe_bind (wpe_mono (iPrimary s1 h1.here) (fun e s2 h2 => wpe_pure h2))
          split
          · exact wpe_bind (wpe_mono (iPrimary s1 h1.here) (fun e s2 h2 => wpe_pure h2))
          split
          · next h47 =>
            simp only [beq_iff_eq] at h47
            subst h47
            obtain ⟨b, hb⟩ := h1.spot.ch _ hc
            have hx := before_text hb
            rw [h1.here.text] at hx
            refine wpe_bind (wpe_offset ?_)
            obtain ⟨g1, g2, g3, g4⟩ := lexRegexpGo_ok (c! '/') s1.rd.rest s1.rd.before []
            have gs := lexRegexp_str (ec := c! '/') s1.rd
            simp only [lexRegexp] at gs
            generalize hy : lexRegexpGo (c! '/') s1.rd.before [] s1.rd.rest = y at g1 g2 g3 g4 gs
            obtain ⟨lx2, r2⟩ := y
            simp only at g1 g2 g3 g4 gs
            have h2 : wpe (fun s => let (lx, r) := lexRegexp (c! '/') s.rd; .ok (lx, { s with rd := r }) : P Lexeme)
                (fun lx s' => lx = lx2 ∧ s' = { s1 with rd := r2 }) (True_ env text) s1 := by
              unfold wpe
              simp [lexRegexp, hy]
            refine wpe_bind (wpe_mono h2 ?_)
            rintro lx3 s2 ⟨rfl, rfl⟩
            have hh : Here env text Any { s1 with rd := r2 } :=
              ⟨g1.trans h1.here.text, fun l hl => by rw [show s1.peek = none from h1.none] at hl; cases hl⟩
            split
            · next er he =>
              obtain ⟨rfl, hn⟩ := lexRegexp_err hy he
              exact wpe_fail (.lex _ (.regexp b.reverse _ hx hn))
            · next he =>
              obtain ⟨v, rfl⟩ := gs he
              obtain ⟨t, v', k1, k2, k3, k4⟩ := lexRegexp_inv hy
              simp only [List.nil_append] at k2
              subst k2
              show wpe (do let s ← pure v; if env.reValid s = true then pure (Expr.re s) else P.fail (.badRegexp s s1.rd.offset)) _ _ _
              refine wpe_bind (wpe_pure ?_)
              split
              · exact wpe_pure hh
              · next hv =>
                refine wpe_fail ?_
                have : PErr.text env (.badRegexp v s1.rd.offset) = env.reError v ++ b! " at offset " ++ natToBytes b.length := by
                  simp [PErr.text, text_offset, Rd.offset, hb]
                show Message env text (PErr.text env _)
                rw [this]
                refine .regexp b.reverse t v r2.rest _ (by rw [hx, k3]) k1 (by simpa using hv) ?_
                have := numeral_natToBytes b.length
                simpa using this
          split
          · exact wpe_pure h1.here
          split
          · exact wpe_pure h1.here
          split
          · refine wpe_bind (wpe_mono (iExpr _ s1 h1.here) ?_)
            intro e s2 h2
            refine wpe_bind (wpe_mono (expect_blame (K' := Any) (by decide) (lexExprP_blame h2)) ?_)
            intro _ s3 h3
            exact wpe_pure h3.1
          split
          · exact iApp _ _ _ s1 (by decide) h1.here
          · refine wpe_fail ?_
            rw [hc] at hterm; exact hterm
        · refine wpe_fail ?_
          exact hterm

theorem parseScriptExpr_blame {s : LState} (h : Here env text Any s) :
    wpe (parseScriptExpr env) (fun _ s' => Here env text Any s') (True_ env text) s := by
  have := (blame_expr env text (exprFuel s)).1 0 s h
  unfold wpe at this ⊢
  unfold parseScriptExpr
  exact this

theorem parseScriptExpression_blame {e : PErr} (h : parseScriptExpression env text = .err e) : Message env text (e.text env) := by
  unfold parseScriptExpression at h
  have h0 : Here env text Any ⟨⟨[], text⟩, none⟩ := ⟨by simp [Rd.text], fun l hl => by cases hl⟩
  have key : wpe (do
      let e ← parseScriptExpr env
      let lx ← lexExprP env
      let off ← P.offset
      if lx.tok ≠ .eof then P.fail (.missingOperator off lx.tok) else pure e) (fun _ _ => True) (True_ env text) ⟨⟨[], text⟩, none⟩ := by
    refine wpe_bind (wpe_mono (parseScriptExpr_blame h0) ?_)
    intro e s1 h1
    refine wpe_bind (wpe_mono (lexExprP_blame h1) ?_)
    intro lx s2 h2
    refine wpe_bind (wpe_offset ?_)
    split
    · refine wpe_fail ?_
      have : PErr.text env (.missingOperator s2.rd.offset lx.tok) = b! "missing operator at offset " ++ natToBytes s2.rd.offset ++ b! ", before " ++ lx.tok.text := by
        simp [PErr.text, text_offset]
      show Message env text (PErr.text env _)
      rw [this]
      refine .missingOperator s2.rd.offset _ _ (numeral_natToBytes _) ?_
      rw [← h2.here.text]; exact h2.spot.named
    · exact wpe_pure trivial
  unfold wpe at key
  simp only at h
  split at h
  · cases h
  · next hx => rw [hx] at key; cases h; exact key
  · cases h
  · cases h

/-! ### Paths -/

theorem pParenExpr_blame {K : Tok → Prop} {s : LState} (h : Here env text K s) :
    wpe (pParenExpr env) (fun _ s' => Here env text NotReal s' ∧ s'.peek = none) (True_ env text) s := by
  unfold pParenExpr
  refine wpe_bind (wpe_mono (parseScriptExpr_blame h.any) ?_)
  intro e s1 h1
  have h2 : wpe (lexPathP env) (Got env text Any) (True_ env text) s1 := by
    unfold wpe lexPathP lexWith
    cases hp : s1.peek with
    | some l => exact ⟨⟨h1.text, fun _ hl => by cases hl⟩, rfl, (h1.peek l hp).1, trivial⟩
    | none =>
      cases hl : lexPath env s1.rd with
      | none => trivial
      | some x =>
        obtain ⟨lx, r⟩ := x
        obtain ⟨y, hy, ok⟩ := lexPath_ok env s1.rd
        rw [hl] at hy; cases hy
        exact ⟨⟨ok.text.trans h1.text, fun _ h' => by cases h'⟩, rfl, spot_lexPath hl, trivial⟩
  exact wpe_bind (wpe_mono (expect_blame (K' := NotReal) (by decide) h2) (fun _ s2 h3 => wpe_pure h3))

theorem unexpectedAt_blame {K : Tok → Prop} {lx : Lexeme} {s : LState} (h : Got env text K lx s) :
    True_ env text (.unexpectedAt lx.tok s.rd.offset) := by
  have : PErr.text env (.unexpectedAt lx.tok s.rd.offset) = b! "unexpected " ++ lx.tok.text ++ b! " at offset " ++ natToBytes s.rd.offset := by
    simp [PErr.text, text_offset]
  show Message env text (PErr.text env _)
  rw [this]
  refine .unexpected s.rd.offset _ _ (numeral_natToBytes _) ?_
  rw [← h.here.text]; exact h.spot.named

theorem pMember_blame {s : LState} (h : Here env text NotReal s) :
    wpe (pMember env) (fun _ s' => Here env text NotReal s') (True_ env text) s := by
  unfold pMember
  refine wpe_bind (wpe_mono (lexPathP_blame h) ?_)
  intro lx s1 h1
  split
  · next he => exact wpe_fail (h1.lex he)
  · split
    · exact wpe_pure h1.here
    split
    · exact wpe_bind (wpe_s (fun _ => wpe_pure h1.here))
    split
    · exact wpe_bind (wpe_i (fun _ => wpe_pure h1.here))
    split
    · exact wpe_bind (wpe_mono (pParenExpr_blame h1.here) (fun _ s2 h2 => wpe_pure h2.1))
    · exact wpe_bind (wpe_offset (wpe_fail (unexpectedAt_blame h1)))

theorem pSliceVal_blame {s : LState} (h : Here env text NotReal s) :
    wpe (pSliceVal env) (fun _ s' => Here env text NotReal s') (True_ env text) s := by
  unfold pSliceVal
  refine wpe_bind (wpe_mono (lexPathP_blame h) ?_)
  intro lx s1 h1
  split
  · exact wpe_bind (wpe_mono (pParenExpr_blame h1.here) (fun _ s2 h2 => wpe_pure h2.1))
  split
  · exact wpe_bind (wpe_i (fun _ => wpe_pure h1.here))
  · exact wpe_bind (wpe_offset (wpe_fail (unexpectedAt_blame h1)))

/-- The result is a step that may be in a union. -/
abbrev Sliced (env : Env) (text : Bytes) : Step → LState → Prop := fun st s => Here env text NotReal s ∧ st.op = .select

theorem pSlice_blame {start : Option Bound} {s : LState} (h : Here env text NotReal s) :
    wpe (pSlice env start) (Sliced env text) (True_ env text) s := by
  unfold pSlice
  refine wpe_bind (wpe_mono (lookPath_blame h) ?_)
  intro t s1 h1
  dsimp only
  split
  · exact wpe_pure ⟨h1.here, rfl⟩
  · have tail : ∀ (stop : Option Bound) s2, Here env text NotReal s2 → wpe (do
        let t ← lookPath env
        if t = .ch (c! ']') ∨ t = .ch (c! ',') then pure (Step.mk .select [.slice ⟨start, stop, none⟩])
        else if t = .ch (c! ':') then do
          let _ ← lexPathP env
          let tok ← lookPath env
          if tok = .ch (c! ',') ∨ tok = .ch (c! ']') then pure (Step.mk .select [.slice ⟨start, stop, none⟩])
          else do
            let e ← pSliceVal env
            pure (Step.mk .select [.slice ⟨start, stop, some e⟩])
        else do
          let t ← lookPath env
          let off ← P.offset
          P.fail (.unexpectedTokenAt t off)) (Sliced env text) (True_ env text) s2 := by
      intro stop s2 h2
      refine wpe_bind (wpe_mono (lookPath_blame h2) ?_)
      intro t s3 h3
      split
      · exact wpe_pure ⟨h3.here, rfl⟩
      split
      · refine wpe_bind (wpe_mono (lexPathP_blame h3.here) ?_)
        intro lx s4 h4
        refine wpe_bind (wpe_mono (lookPath_blame h4.here) ?_)
        intro t s5 h5
        split
        · exact wpe_pure ⟨h5.here, rfl⟩
        · exact wpe_bind (wpe_mono (pSliceVal_blame h5.here) (fun _ s6 h6 => wpe_pure ⟨h6, rfl⟩))
      · refine wpe_bind (wpe_mono (lookPath_blame h3.here) ?_)
        intro t s4 h4
        refine wpe_bind (wpe_offset (wpe_fail ?_))
        have : PErr.text env (.unexpectedTokenAt t s4.rd.offset) = b! "unexpected token " ++ t.text ++ b! " at offset " ++ natToBytes s4.rd.offset := by
          simp [PErr.text, text_offset]
        show Message env text (PErr.text env _)
        rw [this]
        refine .unexpectedToken s4.rd.offset _ _ (numeral_natToBytes _) ?_
        obtain ⟨l, rfl, hl⟩ := h4.spot
        rw [← h4.here.text]; exact hl.named
    split
    · refine wpe_bind (wpe_mono (pSliceVal_blame h1.here) ?_)
      intro e s2 h2
      exact tail (some e) s2 h2
    · exact tail none s1 h1.here

/-- The step is of a kind whose sign is in the text. -/
structure Stepped (env : Env) (text : Bytes) (st : Step) (s : LState) : Prop where
  here : Here env text NotReal s
  wild : st.op = .wild → ∃ a b, text = a ++ c! '*' :: b
  exp : st.op = .exp → ∃ a b, text = a ++ c! '(' :: b
  filter : st.op = .filter → ∃ a b, text = a ++ (b! "?(" ++ b)

theorem Sliced.stepped {st : Step} {s : LState} (h : Sliced env text st s) : Stepped env text st s := by
  obtain ⟨h1, h2⟩ := h
  exact ⟨h1, by simp [h2], by simp [h2], by simp [h2]⟩

theorem pVal_blame {s : LState} (h : Here env text NotReal s) : wpe (pVal env) (Stepped env text) (True_ env text) s := by
  unfold pVal
  refine wpe_bind (wpe_mono (lexPathP_blame h) ?_)
  intro lx s1 h1
  split
  · next he => exact wpe_fail (h1.lex he)
  split
  · next hc => exact wpe_pure ⟨h1.here, fun _ => h1.chIn hc, by simp, by simp⟩
  split
  · next hc =>
    refine wpe_bind (wpe_mono (pParenExpr_blame h1.here) ?_)
    intro e s2 h2
    refine wpe_bind (wpe_mono (lookPath_blame h2.1) ?_)
    intro t s3 h3
    split
    · refine wpe_bind (wpe_mono (lexPathP_blame h3.here) ?_)
      intro lx s4 h4
      exact wpe_mono (pSlice_blame h4.here) (fun _ _ h => h.stepped)
    · exact wpe_pure ⟨h3.here, by simp, fun _ => h1.chIn hc, by simp⟩
  split
  · exact wpe_mono (pSlice_blame h1.here) (fun _ _ h => h.stepped)
  split
  · next hc =>
    refine wpe_bind (wpe_mono (pParenExpr_blame h1.here) ?_)
    intro e s2 h2
    refine wpe_pure ⟨h2.1, by simp, by simp, fun _ => ?_⟩
    obtain ⟨b, hb⟩ := h1.spot.filter hc
    refine ⟨b.reverse, s1.rd.rest, ?_⟩
    rw [← h1.here.text, before_text hb]
    simp
  split
  · refine wpe_bind (wpe_i (fun n => ?_))
    refine wpe_bind (wpe_mono (lookPath_blame h1.here) ?_)
    intro t s3 h3
    split
    · refine wpe_bind (wpe_mono (lexPathP_blame h3.here) ?_)
      intro lx s4 h4
      exact wpe_mono (pSlice_blame h4.here) (fun _ _ h => h.stepped)
    · exact wpe_pure ⟨h3.here, by simp, by simp, by simp⟩
  split
  · exact wpe_bind (wpe_s (fun n => wpe_pure ⟨h1.here, by simp, by simp, by simp⟩))
  split
  · exact wpe_bind (wpe_s (fun n => wpe_pure ⟨h1.here, by simp, by simp, by simp⟩))
  · exact wpe_bind (wpe_offset (wpe_fail (unexpectedAt_blame h1)))

/-- What is known of the steps of a list. -/
structure Listed (env : Env) (text : Bytes) (sts : List Step) (s : LState) : Prop where
  here : Here env text NotReal s
  each : ∀ st ∈ sts, ∃ s', Stepped env text st s'
  comma : 1 < sts.length → c! ',' ∈ text

theorem pValList_blame : ∀ f {s : LState}, Here env text NotReal s → wpe (pValList env f) (Listed env text) (True_ env text) s
  | 0, s, _ => by rw [pValList]; exact wpe_stuck
  | f + 1, s, h => by
    rw [pValList]
    refine wpe_bind (wpe_mono (pVal_blame h) ?_)
    intro v s1 h1
    refine wpe_bind (wpe_mono (lookPath_blame h1.here) ?_)
    intro t s2 h2
    split
    · exact wpe_pure ⟨h2.here, by rintro st hst; simp at hst; subst hst; exact ⟨_, h1⟩, by simp⟩
    · next ht =>
      have ht : t = .ch (c! ',') := by simpa using ht
      subst ht
      obtain ⟨a, b, hab⟩ := h2.ch
      refine wpe_bind (wpe_mono (lexPathP_blame h2.here) ?_)
      intro lx s3 h3
      refine wpe_bind (wpe_mono (pValList_blame f h3.here) ?_)
      intro vs s4 h4
      refine wpe_pure ⟨h4.here, ?_, fun _ => by rw [hab]; simp⟩
      rintro st hst
      rcases List.mem_cons.1 hst with rfl | hst
      · exact ⟨_, h1⟩
      · exact h4.each st hst

theorem notInUnion_some : ∀ {sts : List Step} {op : Op}, notInUnion sts = some op →
    ∃ st ∈ sts, st.op = op ∧ (op = .wild ∨ op = .exp ∨ op = .filter)
  | [], _, h => by simp [notInUnion] at h
  | st :: r, op, h => by
    unfold notInUnion at h
    split at h
    · next hc => cases h; exact ⟨st, by simp, rfl, hc⟩
    · obtain ⟨st', h1, h2⟩ := notInUnion_some h
      exact ⟨st', by simp [h1], h2⟩

theorem subscript_blame {sts : List Step} {s : LState} (h : Listed env text sts s) :
    wpe (subscript sts) (fun _ s' => Here env text NotReal s') (True_ env text) s := by
  unfold subscript
  split
  · next op hop =>
    split at hop
    · next hl =>
      obtain ⟨st, h1, rfl, h3⟩ := notInUnion_some hop
      obtain ⟨s', h4⟩ := h.each st h1
      have hc := h.comma hl
      refine wpe_fail ?_
      show Message env text (st.op.text ++ b! " cannot be in a union element list")
      rcases h3 with h3 | h3 | h3
      · obtain ⟨a, b, hab⟩ := h4.wild h3
        rw [h3]; exact .wildInUnion a b hab hc
      · obtain ⟨a, b, hab⟩ := h4.exp h3
        rw [h3]; exact .expInUnion a b hab hc
      · obtain ⟨a, b, hab⟩ := h4.filter h3
        rw [h3]; exact .filterInUnion a b hab hc
    · cases hop
  · split
    · exact wpe_panic
    split
    · exact wpe_pure h.here
    split
    · exact wpe_pure h.here
    split
    · exact wpe_panic
    · exact wpe_pure h.here
    · exact wpe_pure h.here

theorem pBrackets_blame {s : LState} (h : Here env text NotReal s) :
    wpe (pBrackets env) (fun _ s' => Here env text NotReal s') (True_ env text) s := by
  unfold pBrackets
  have h0 : wpe (fun s => pValList env (pathFuel s) s : P (List Step)) (Listed env text) (True_ env text) s := by
    have := pValList_blame (env := env) (pathFuel s) h
    unfold wpe at this ⊢
    exact this
  refine wpe_bind (wpe_mono h0 ?_)
  intro sts s1 h1
  refine wpe_bind (wpe_mono (subscript_blame h1) ?_)
  intro st s2 h2
  exact wpe_bind (wpe_mono (expect_blame (K' := NotReal) (by decide) (lexPathP_blame h2)) (fun _ s3 h3 => wpe_pure h3.1))

theorem unexpectedLexeme_blame {lx : Lexeme} {s : LState} (h : Got env text NotReal lx s) (h1 : lx.tok ≠ .eof) (h2 : lx.tok ≠ .error) :
    True_ env text (.unexpectedLexeme lx) := by
  have := h.spot.shown h.kind h1 h2
  rw [h.here.text] at this
  exact this

theorem pSteps_blame : ∀ f {acc : Path} {s : LState}, Here env text NotReal s →
    wpe (pSteps env f acc) (fun _ s' => Here env text NotReal s') (True_ env text) s
  | 0, acc, s, _ => by rw [pSteps]; exact wpe_stuck
  | f + 1, acc, s, h => by
    rw [pSteps]
    refine wpe_bind (wpe_mono (lexPathP_blame h) ?_)
    intro lx s1 h1
    have hun := unexpectedLexeme_blame h1
    split
    · exact wpe_pure h1.here
    · split
      · next he => exact wpe_fail (h1.lex he)
      · exact wpe_panic
    · refine wpe_bind (wpe_mono (lookPath_blame h1.here) ?_)
      intro t s2 h2
      split
      · refine wpe_bind (wpe_mono (lexPathP_blame h2.here) ?_)
        intro lx s3 h3
        refine wpe_bind (wpe_mono (pBrackets_blame h3.here) ?_)
        intro sub s4 h4
        split
        · exact wpe_panic
        · exact pSteps_blame f h4
      · refine wpe_bind (wpe_mono (pMember_blame h2.here) ?_)
        intro m s3 h3
        split
        · exact pSteps_blame f h3
        · exact pSteps_blame f h3
    · next c hc =>
      rw [hc] at hun
      split
      · refine wpe_bind (wpe_mono (pMember_blame h1.here) ?_)
        intro m s3 h3
        split
        · exact pSteps_blame f h3
        · exact pSteps_blame f h3
      split
      · refine wpe_bind (wpe_mono (pBrackets_blame h1.here) ?_)
        intro sub s4 h4
        exact pSteps_blame f h4
      · exact wpe_fail (hun (by simp) (by simp))
    · exact wpe_fail (hun (by assumption) (by assumption))

theorem parsePath_blame {e : PErr} (h : parsePath env text = .err e) : Message env text (e.text env) := by
  have h0 : Here env text NotReal ⟨⟨[], text⟩, none⟩ := ⟨by simp [Rd.text], fun l hl => by cases hl⟩
  have key : wpe (pPath env) (fun _ s' => Here env text NotReal s') (True_ env text) ⟨⟨[], text⟩, none⟩ := by
    unfold pPath
    refine wpe_bind (wpe_mono (expect_blame (K' := NotReal) (by decide) (lexPathP_blame h0)) ?_)
    intro _ s1 h1
    have := pSteps_blame (env := env) (pathFuel s1) (acc := []) h1.1
    unfold wpe at this ⊢
    exact this
  unfold parsePath at h
  unfold wpe at key
  split at h
  · cases h
  · next hx => rw [hx] at key; cases h; exact key
  · cases h
  · cases h

end JP
