import Verif.Model.ParseDepth
import Verif.Proof.ParseTotal
import Verif.Proof.Tokens
import Verif.Spec.ParseDepth
/-!
The expression parser with a limited stack does what the parser does, when the stack suffices.
-/
namespace JP
open Spec

/-- Whether a token is one of those that begin something nested. -/
def Lexeme.opens (lx : Lexeme) : Nat :=
  match lx.err, lx.tok with
  | none, .ch c => if c ∈ b! "([-!" then 1 else 0
  | _, _ => 0

/-- The openers left to be read. -/
def opensLeft (s : LState) : Nat :=
  openers s.rd.rest + match s.peek with
    | some lx => lx.opens
    | none => 0

variable {env : Env} {α β : Type}

/-- Two parsers do the same from this state, and their result is such. -/
def Matches (x y : P α) (s : LState) (Q : α → LState → Prop) : Prop :=
  x s = y s ∧ ∀ a s', y s = .ok (a, s') → Q a s'

namespace Matches
variable {x y : P α} {f g : α → P β} {s : LState} {Q R : α → LState → Prop} {T : β → LState → Prop}

theorem bind (h : Matches x y s R) (k : ∀ a s', R a s' → Matches (f a) (g a) s' T) : Matches (x >>= f) (y >>= g) s T := by
  obtain ⟨h1, h2⟩ := h
  show P.bind x f s = P.bind y g s ∧ ∀ a s', P.bind y g s = .ok (a, s') → T a s'
  unfold P.bind
  rw [h1]
  rcases hy : y s with ⟨a, s'⟩ | e | m | _
  · exact k a s' (h2 a s' hy)
  all_goals exact ⟨rfl, fun _ _ h => by cases h⟩
theorem mono (h : Matches x y s R) (k : ∀ a s', R a s' → Q a s') : Matches x y s Q := ⟨h.1, fun a s' e => k a s' (h.2 a s' e)⟩
theorem pure {a : α} (h : Q a s) : Matches (Pure.pure a) (Pure.pure a) s Q := ⟨rfl, fun _ _ e => by cases e; exact h⟩
theorem fail {e : PErr} : Matches (α := α) (P.fail e) (P.fail e) s Q := ⟨rfl, fun _ _ h => by cases h⟩
theorem panic {m : String} : Matches (α := α) (P.panic m) (P.panic m) s Q := ⟨rfl, fun _ _ h => by cases h⟩
theorem stuck : Matches (α := α) P.stuck P.stuck s Q := ⟨rfl, fun _ _ h => by cases h⟩
theorem refl (h : ∀ a s', x s = .ok (a, s') → Q a s') : Matches x x s Q := ⟨rfl, h⟩
theorem frame {d : Nat} {k : Nat → P α} (hd : 1 ≤ d) (h : ∀ e, d = e + 1 → Matches (k e) y s Q) : Matches (JP.frame d k) y s Q := by
  cases d with
  | zero => omega
  | succ e => exact h e rfl
end Matches

theorem openers_append (a b : Bytes) : openers (a ++ b) = openers a + openers b := by simp [openers]

/-- Reading on leaves no more openers. -/
theorem openers_later {r r' : Rd} (h1 : r'.text = r.text) (h2 : r'.rest.length ≤ r.rest.length) : openers r'.rest ≤ openers r.rest := by
  have e1 : r.rest = r.text.drop r.before.length := by simp [Rd.text, List.drop_append]
  have e2 : r'.rest = r'.text.drop r'.before.length := by simp [Rd.text, List.drop_append]
  have e3 : r'.before.length + r'.rest.length = r.before.length + r.rest.length := by
    have := congrArg List.length h1
    simpa [Rd.text] using this
  have e4 : r'.before.length = r.before.length + (r'.before.length - r.before.length) := by omega
  rw [e1, e2, h1, e4, ← List.drop_drop]
  generalize r.text.drop r.before.length = l
  exact (List.drop_sublist _ l).countP_le

theorem lexExpr_opens {r r' : Rd} {lx : Lexeme} (h : lexExpr env r = some (lx, r')) : openers r'.rest + lx.opens ≤ openers r.rest := by
  obtain ⟨x, hx, ok⟩ := lexExpr_ok env r
  rw [h] at hx
  cases hx
  have hle : openers r'.rest ≤ openers r.rest := openers_later ok.text ok.le
  by_cases he : lx.opens = 0
  · omega
  · obtain ⟨tok, val, err⟩ := lx
    unfold Lexeme.opens at he ⊢
    cases err with
    | some e => simp at he
    | none =>
      cases tok with
      | ch c =>
        simp only at he ⊢
        by_cases hc : c ∈ b! "([-!"
        · rw [if_pos hc]
          obtain ⟨b, text⟩ := r
          obtain ⟨g, w, _, h2, _, h4⟩ := lexExpr_inv h rfl (by simp)
          have hw : w = [c] := by
            rcases h4 with h4 | ⟨_, v, h4, _⟩
            · cases h4 <;> rfl
            · cases h4
          subst hw
          subst h2
          rw [openers_append, openers_append]
          have : openers [c] = 1 := by
            unfold openers
            rw [List.countP_cons_of_pos (by simpa using hc)]
            rfl
          omega
        · rw [if_neg hc] at he; omega
      | _ => simp at he

theorem lexExprP_opens {s : LState} : ∀ lx s', lexExprP env s = .ok (lx, s') → opensLeft s' + lx.opens ≤ opensLeft s ∧ s'.peek = none := by
  intro lx s' h
  unfold lexExprP lexWith at h
  unfold opensLeft
  obtain ⟨rd, peek⟩ := s
  cases peek with
  | some l => cases h; exact ⟨by simp, rfl⟩
  | none =>
    simp only at h ⊢
    cases hl : lexExpr env rd with
    | none => rw [hl] at h; cases h
    | some x =>
      obtain ⟨l, r⟩ := x
      rw [hl] at h
      cases h
      have := lexExpr_opens hl
      exact ⟨by simp; omega, rfl⟩

theorem Matches.lex {s : LState} : Matches (lexExprP env) (lexExprP env) s fun lx s' => opensLeft s' + lx.opens ≤ opensLeft s ∧ s'.peek = none :=
  .refl lexExprP_opens

theorem Matches.unget {s : LState} {lx : Lexeme} :
    Matches (ungetP lx) (ungetP lx) s fun _ s' => s' = { s with peek := some lx } ∧ s.peek = none := by
  refine .refl ?_
  intro a s' h
  unfold ungetP at h
  cases hp : s.peek with
  | some l => rw [hp] at h; cases h
  | none => rw [hp] at h; cases h; exact ⟨rfl, rfl⟩

/-- After a look ahead: the token seen is the one that is read next. -/
theorem Matches.look {s : LState} : Matches (lookExpr env) (lookExpr env) s fun t s' =>
    opensLeft s' ≤ opensLeft s ∧ ∃ lx, s'.peek = some lx ∧ t = if lx.err.isSome then .error else lx.tok := by
  unfold lookExpr lookWith
  refine .bind .lex fun lx s1 h1 => .bind .unget fun _ s2 h2 => .pure ?_
  obtain ⟨h1, h3⟩ := h1
  obtain ⟨rfl, h4⟩ := h2
  refine ⟨?_, lx, rfl, rfl⟩
  simp [opensLeft, h3] at h1 ⊢
  omega

theorem opLexeme_opens (lx : Lexeme) : (opLexeme lx).opens ≤ lx.opens := by
  obtain ⟨tok, val, err⟩ := lx
  unfold opLexeme
  cases err with
  | some e => simp [Lexeme.opens]
  | none =>
    simp only [Option.isSome_none, Bool.false_eq_true, if_false]
    split
    · split
      · simp [Lexeme.opens]
      · split
        · simp [Lexeme.opens]
        · exact Nat.le_refl _
    · exact Nat.le_refl _

theorem opLexeme_twice (lx : Lexeme) : opLexeme (opLexeme lx) = opLexeme lx := by
  obtain ⟨tok, val, err⟩ := lx
  unfold opLexeme
  cases err with
  | some e => simp
  | none =>
    by_cases h1 : tok = .id
    · subst h1
      by_cases h2 : val = .str (b! "in")
      · simp [h2]
      · by_cases h3 : val = .str (b! "nin")
        · simp [h3]
        · simp [h2, h3]
    · simp [h1]

theorem Matches.lookOp {s : LState} : Matches (lookOp env) (JP.lookOp env) s fun t s' =>
    opensLeft s' ≤ opensLeft s ∧ ∃ lx, s'.peek = some lx ∧ opLexeme lx = lx ∧ t = lx.tok := by
  unfold JP.lookOp
  rw [lexOp_eq]
  refine .bind (.bind .lex fun lx s1 h => .pure (Q := fun lx s1 => opensLeft s1 + lx.opens ≤ opensLeft s ∧ s1.peek = none ∧ opLexeme lx = lx)
    ⟨by have := opLexeme_opens lx; omega, h.2, opLexeme_twice lx⟩) fun lx s1 h1 => .bind .unget fun _ s2 h2 => .pure ?_
  obtain ⟨h1, h3, h5⟩ := h1
  obtain ⟨rfl, h4⟩ := h2
  refine ⟨?_, lx, rfl, h5, rfl⟩
  simp [opensLeft, h3] at h1 ⊢
  omega

theorem Matches.lexOp {s : LState} {l : Lexeme} (hp : s.peek = some l) (ho : opLexeme l = l) :
    Matches (lexOp env) (JP.lexOp env) s fun lx s' => lx = l ∧ opensLeft s' ≤ opensLeft s := by
  refine .refl fun lx s' h => ?_
  have : JP.lexOp env s = .ok (l, { s with peek := none }) := by
    rw [lexOp_eq]
    show P.bind _ _ s = _
    unfold P.bind lexExprP lexWith
    rw [hp]
    show Res.ok (opLexeme l, _) = _
    rw [ho]
  rw [this] at h
  cases h
  exact ⟨rfl, by simp [opensLeft]⟩

/-- The token seen is read. -/
theorem Matches.next {s : LState} {l : Lexeme} (hp : s.peek = some l) :
    Matches (lexExprP env) (lexExprP env) s fun lx s' => lx = l ∧ opensLeft s' + l.opens ≤ opensLeft s := by
  refine .refl fun lx s' h => ?_
  unfold lexExprP lexWith at h
  rw [hp] at h
  cases h
  exact ⟨rfl, by simp [opensLeft, hp]⟩

theorem Matches.expect {s : LState} {t : Tok} : Matches (expect (lexExprP env) t) (JP.expect (lexExprP env) t) s fun _ s' => opensLeft s' ≤ opensLeft s := by
  unfold JP.expect
  refine .bind .lex fun lx s1 h1 => ?_
  have h0 : opensLeft s1 ≤ opensLeft s := by omega
  refine .bind (R := fun _ s2 => s2 = s1) (.refl fun _ _ h => by cases h; rfl) fun off s2 h2 => ?_
  subst h2
  split
  · exact .fail
  · split
    · exact .fail
    · exact .pure h0

theorem seen_opens {lx : Lexeme} {c : UInt8} (h : Tok.ch c = if lx.err.isSome then .error else lx.tok) (hc : c ∈ b! "([-!") : lx.opens = 1 := by
  obtain ⟨tok, val, err⟩ := lx
  cases err with
  | some e => simp at h
  | none => simp at h; subst h; simp only [Lexeme.opens]; exact if_pos hc

theorem Matches.val {s : LState} {x : P α} (h : ∀ s a s', x s = .ok (a, s') → s' = s) : Matches x x s fun _ s' => s' = s := .refl (h s)

theorem lx_s (lx : Lexeme) : ∀ s a s', lx.s s = .ok (a, s') → s' = s := by
  intro s a s' h; obtain ⟨t, v, e⟩ := lx; cases v <;> cases h <;> rfl
theorem lx_i (lx : Lexeme) : ∀ s a s', lx.i s = .ok (a, s') → s' = s := by
  intro s a s' h; obtain ⟨t, v, e⟩ := lx; cases v <;> cases h <;> rfl
theorem lx_f (lx : Lexeme) : ∀ s a s', lx.f s = .ok (a, s') → s' = s := by
  intro s a s' h; obtain ⟨t, v, e⟩ := lx; cases v <;> cases h <;> rfl

theorem precedence_le (op : Op) : op.precedence ≤ 5 := by cases op <;> decide

mutual
theorem dExpr_matches : ∀ (f d : Nat) (pri : Nat) (s : LState), pri ≤ 6 → 11 * opensLeft s + 9 ≤ d + pri →
    Matches (dExpr env f d pri) (pExpr env f pri) s fun _ s' => opensLeft s' ≤ opensLeft s
  | 0, _, _, _, _, _ => by unfold dExpr pExpr; exact .stuck
  | f + 1, d, pri, s, hp, hd => by
    unfold dExpr pExpr
    refine .frame (by omega) fun e he => ?_
    subst he
    refine .bind (dPrimary_matches f e s (by omega)) fun x s1 h1 => ?_
    exact (dExprLoop_matches f e pri x s1 hp (by omega)).mono fun _ s2 h2 => Nat.le_trans h2 h1
theorem dExprLoop_matches : ∀ (f d : Nat) (pri : Nat) (x : Expr) (s : LState), pri ≤ 6 → 11 * opensLeft s + 8 ≤ d + pri →
    Matches (dExprLoop env f d pri x) (pExprLoop env f pri x) s fun _ s' => opensLeft s' ≤ opensLeft s
  | 0, _, _, _, _, _, _ => by unfold dExprLoop pExprLoop; exact .stuck
  | f + 1, d, pri, x, s, hp, hd => by
    unfold dExprLoop pExprLoop
    refine .bind .lookOp fun t s1 h1 => ?_
    obtain ⟨h1, l, h2, h3, rfl⟩ := h1
    split
    · next hge =>
      refine .bind (.lexOp h2 h3) fun lx s2 h4 => ?_
      obtain ⟨rfl, h4⟩ := h4
      cases lx.err with
      | some er => exact .fail
      | none =>
        have h5 := precedence_le (tok2op lx.tok)
        obtain ⟨k, hk⟩ : ∃ k : Nat, (tok2op lx.tok).precedence = k := ⟨(tok2op lx.tok).precedence.toNat, by omega⟩
        have e : (tok2op lx.tok).precedence + (tok2op lx.tok).associativity = ((k + 1 : Nat) : Int) := by rw [hk]; rfl
        dsimp only
        rw [e]
        refine .bind (dExpr_matches f d (k + 1) s2 (by omega) (by omega)) fun y s3 h6 => ?_
        exact (dExprLoop_matches f d pri _ s3 hp (by omega)).mono fun _ s4 h7 => by omega
    · exact .pure h1
theorem dPrimary_matches : ∀ (f d : Nat) (s : LState), 11 * opensLeft s + 2 ≤ d →
    Matches (dPrimary env f d) (pPrimary env f) s fun _ s' => opensLeft s' ≤ opensLeft s
  | 0, _, _, _ => by unfold dPrimary pPrimary; exact .stuck
  | f + 1, d, s, hd => by
    unfold dPrimary pPrimary
    refine .frame (by omega) fun e he => ?_
    subst he
    refine .bind (dPrimary1_matches f e s (by omega)) fun x s1 h1 => ?_
    exact (dPrimaryLoop_matches f e x s1 (by omega)).mono fun _ s2 h2 => Nat.le_trans h2 h1
theorem dPrimaryLoop_matches : ∀ (f d : Nat) (x : Expr) (s : LState), 11 * opensLeft s + 1 ≤ d →
    Matches (dPrimaryLoop env f d x) (pPrimaryLoop env f x) s fun _ s' => opensLeft s' ≤ opensLeft s
  | 0, _, _, _, _ => by unfold dPrimaryLoop pPrimaryLoop; exact .stuck
  | f + 1, d, x, s, hd => by
    unfold dPrimaryLoop pPrimaryLoop
    refine .bind .look fun t s1 h1 => ?_
    obtain ⟨h1, l, h2, h3⟩ := h1
    by_cases hc : t = .ch (c! '(')
    · rw [if_pos hc, if_pos hc]
      subst hc
      have ho := seen_opens h3 (by decide)
      by_cases hx : x.opcode ≠ .id
      · rw [if_pos hx, if_pos hx]; exact .fail
      · rw [if_neg hx, if_neg hx]
        refine .bind (.next h2) fun lx s2 h4 => ?_
        refine .bind (dApplication_matches f d _ _ _ s2 (by omega)) fun y s3 h5 => ?_
        exact (dPrimaryLoop_matches f d y s3 (by omega)).mono fun _ s4 h6 => by omega
    · rw [if_neg hc, if_neg hc]
      by_cases hb : t = .ch (c! '[')
      · rw [if_pos hb, if_pos hb]
        subst hb
        have ho := seen_opens h3 (by decide)
        refine .bind (.next h2) fun lx s2 h4 => ?_
        refine .bind (dExpr_matches f d 0 s2 (by omega) (by omega)) fun y s3 h5 => ?_
        refine .bind .expect fun _ s4 h6 => ?_
        exact (dPrimaryLoop_matches f d _ s4 (by omega)).mono fun _ s5 h7 => by omega
      · rw [if_neg hb, if_neg hb]
        by_cases hf : t = .ch (c! '.')
        · rw [if_pos hf, if_pos hf]
          refine .bind (.next h2) fun lx s2 h4 => ?_
          refine .bind .lex fun lx s3 h5 => ?_
          cases lx.err with
          | some er => exact .fail
          | none =>
            dsimp only
            by_cases hi : lx.tok ≠ .id
            · rw [if_pos hi, if_pos hi]; exact .fail
            · rw [if_neg hi, if_neg hi]
              refine .bind (.val (lx_s lx)) fun nm s4 h6 => ?_
              subst h6
              exact (dPrimaryLoop_matches f d _ s4 (by omega)).mono fun _ s5 h7 => by omega
        · rw [if_neg hf, if_neg hf]
          exact .pure h1
theorem dApplication_matches : ∀ (f d : Nat) (op : Op) (stop : Tok) (args : List Expr) (s : LState), 11 * opensLeft s + 11 ≤ d →
    Matches (dApplication env f d op stop args) (pApplication env f op stop args) s fun _ s' => opensLeft s' ≤ opensLeft s
  | 0, _, _, _, _, _, _ => by unfold dApplication pApplication; exact .stuck
  | f + 1, d, op, stop, args, s, hd => by
    unfold dApplication pApplication
    refine .frame (by omega) fun e he => ?_
    subst he
    refine .bind .look fun t s1 h1 => ?_
    obtain ⟨h1, _⟩ := h1
    dsimp only
    split
    · refine .bind (R := fun _ s2 => opensLeft s2 ≤ opensLeft s1) (.frame (by omega) fun e' he' => ?_) fun l s2 h2 =>
        .bind .expect fun _ s3 h3 => .pure (show opensLeft s3 ≤ opensLeft s by omega)
      subst he'
      exact dExprList_matches f e' args s1 (by omega)
    · exact .bind (R := fun _ s2 => s2 = s1) (.pure rfl) fun l s2 h2 =>
        .bind .expect fun _ s3 h3 => .pure (show opensLeft s3 ≤ opensLeft s by subst h2; omega)
theorem dExprList_matches : ∀ (f d : Nat) (list : List Expr) (s : LState), 11 * opensLeft s + 9 ≤ d →
    Matches (dExprList env f d list) (pExprList env f list) s fun _ s' => opensLeft s' ≤ opensLeft s
  | 0, _, _, _, _ => by unfold dExprList pExprList; exact .stuck
  | f + 1, d, list, s, hd => by
    unfold dExprList pExprList
    refine .bind (dExpr_matches f d 0 s (by omega) (by omega)) fun x s1 h1 => ?_
    dsimp only
    refine .bind .look fun t s2 h2 => ?_
    obtain ⟨h2, _⟩ := h2
    split
    · exact .pure (by omega)
    · refine .bind .lex fun lx s3 h3 => ?_
      exact (dExprList_matches f d _ s3 (by omega)).mono fun _ s4 h4 => by omega
theorem dPrimary1_matches : ∀ (f d : Nat) (s : LState), 11 * opensLeft s + 1 ≤ d →
    Matches (dPrimary1 env f d) (pPrimary1 env f) s fun _ s' => opensLeft s' ≤ opensLeft s
  | 0, _, _, _ => by unfold dPrimary1 pPrimary1; exact .stuck
  | f + 1, d, s, hd => by
    unfold dPrimary1 pPrimary1
    refine .frame (by omega) fun e he => ?_
    subst he
    refine .bind .lex fun lx s1 h1 => ?_
    obtain ⟨h1, _⟩ := h1
    obtain ⟨tok, val, err⟩ := lx
    cases err with
    | some er => exact .fail
    | none =>
      cases tok with
      | id =>
        dsimp only
        refine .bind (.val (lx_s _)) fun nm s2 h2 => ?_
        subst h2
        repeat' split
        all_goals exact .pure (by omega)
      | int => exact .bind (.val (lx_i _)) fun n s2 h2 => .pure (by subst h2; omega)
      | real => exact .bind (.val (lx_f _)) fun n s2 h2 => .pure (by subst h2; omega)
      | string => exact .bind (.val (lx_s _)) fun n s2 h2 => .pure (by subst h2; omega)
      | ch c =>
        dsimp only
        have ho : c ∈ b! "([-!" → opensLeft s1 + 1 ≤ opensLeft s := fun hc => by
          have : Lexeme.opens ⟨.ch c, val, none⟩ = 1 := if_pos hc
          omega
        have h0 : opensLeft s1 ≤ opensLeft s := by omega
        by_cases c1 : (c == c! '-') = true
        · rw [if_pos c1, if_pos c1]
          have := ho (by rw [beq_iff_eq.mp c1]; decide)
          refine .bind (.frame (by omega) fun e' he' => ?_) fun x s2 h2 => .pure h2
          subst he'
          exact (dPrimary_matches f e' s1 (by omega)).mono fun _ _ h => Nat.le_trans h h0
        rw [if_neg c1, if_neg c1]
        by_cases c2 : (c == c! '!') = true
        · rw [if_pos c2, if_pos c2]
          have := ho (by rw [beq_iff_eq.mp c2]; decide)
          refine .bind (.frame (by omega) fun e' he' => ?_) fun x s2 h2 => .pure h2
          subst he'
          exact (dPrimary_matches f e' s1 (by omega)).mono fun _ _ h => Nat.le_trans h h0
        rw [if_neg c2, if_neg c2]
        by_cases c3 : (c == c! '/') = true
        · rw [if_pos c3, if_pos c3]
          refine .bind (R := fun _ s2 => s2 = s1) (.refl fun _ _ h => by cases h; rfl) fun off s2 h2 => ?_
          subst h2
          refine .bind (R := fun _ s3 => opensLeft s3 ≤ opensLeft s2) (.refl fun lx s3 h3 => ?_) fun lx s3 h3 => ?_
          · cases h3
            obtain ⟨h4, h5, _⟩ := lexRegexpGo_ok (c! '/') s2.rd.rest s2.rd.before []
            have := openers_later (r := s2.rd) h4 h5
            exact Nat.add_le_add_right this _
          · cases lx.err with
            | some er => exact .fail
            | none =>
              refine .bind (.val (lx_s _)) fun b s4 h4 => ?_
              subst h4
              by_cases hv : env.reValid b = true
              · rw [if_pos hv]; exact .pure (Nat.le_trans h3 h0)
              · rw [if_neg hv]; exact .fail
        rw [if_neg c3, if_neg c3]
        by_cases c4 : (c == c! '@') = true
        · rw [if_pos c4, if_pos c4]; exact .pure h0
        rw [if_neg c4, if_neg c4]
        by_cases c5 : (c == c! '$') = true
        · rw [if_pos c5, if_pos c5]; exact .pure h0
        rw [if_neg c5, if_neg c5]
        by_cases c6 : (c == c! '(') = true
        · rw [if_pos c6, if_pos c6]
          have := ho (by rw [beq_iff_eq.mp c6]; decide)
          refine .bind (R := fun _ s2 => opensLeft s2 ≤ opensLeft s1) (.frame (by omega) fun e' he' => ?_) fun x s2 h2 =>
            .bind .expect fun _ s3 h3 => .pure (show opensLeft s3 ≤ opensLeft s by omega)
          subst he'
          exact dExpr_matches f e' 0 s1 (by omega) (by omega)
        rw [if_neg c6, if_neg c6]
        by_cases c7 : (c == c! '[') = true
        · rw [if_pos c7, if_pos c7]
          have := ho (by rw [beq_iff_eq.mp c7]; decide)
          exact (dApplication_matches f e _ _ _ s1 (by omega)).mono fun _ _ h => Nat.le_trans h h0
        rw [if_neg c7, if_neg c7]
        exact .fail
      | _ => exact .fail
end

/-! ### With any stack: the same result, or the end of the stack -/

/-- The first parser does what the second does or comes to the end of the stack. -/
def Cut (x y : P α) : Prop := ∀ s, x s = y s ∨ x s = .panic "stack overflow"

namespace Cut
variable {x y : P α} {f g : α → P β}
theorem refl : Cut x x := fun _ => .inl rfl
theorem bind (h : Cut x y) (k : ∀ a, Cut (f a) (g a)) : Cut (x >>= f) (y >>= g) := fun s => by
  show P.bind x f s = P.bind y g s ∨ P.bind x f s = _
  unfold P.bind
  rcases h s with h | h
  · rw [h]
    rcases y s with ⟨a, s'⟩ | e | m | _
    · exact k a s'
    all_goals exact .inl rfl
  · rw [h]; exact .inr rfl
theorem frame {d : Nat} {k : Nat → P α} (h : ∀ e, Cut (k e) y) : Cut (JP.frame d k) y := by
  cases d with
  | zero => exact fun _ => .inr rfl
  | succ e => exact h e
end Cut

mutual
theorem dExpr_cut : ∀ (f d : Nat) (pri : Int), Cut (dExpr env f d pri) (pExpr env f pri)
  | 0, _, _ => by unfold dExpr pExpr; exact .refl
  | f + 1, d, pri => by
    unfold dExpr pExpr
    exact .frame fun e => .bind (dPrimary_cut f e) fun x => dExprLoop_cut f e pri x
theorem dExprLoop_cut : ∀ (f d : Nat) (pri : Int) (x : Expr), Cut (dExprLoop env f d pri x) (pExprLoop env f pri x)
  | 0, _, _, _ => by unfold dExprLoop pExprLoop; exact .refl
  | f + 1, d, pri, x => by
    unfold dExprLoop pExprLoop
    refine .bind .refl fun t => ?_
    split
    · refine .bind .refl fun lx => ?_
      cases lx.err with
      | some er => exact .refl
      | none => exact .bind (dExpr_cut f d _) fun y => dExprLoop_cut f d pri _
    · exact .refl
theorem dPrimary_cut : ∀ (f d : Nat), Cut (dPrimary env f d) (pPrimary env f)
  | 0, _ => by unfold dPrimary pPrimary; exact .refl
  | f + 1, d => by
    unfold dPrimary pPrimary
    exact .frame fun e => .bind (dPrimary1_cut f e) fun x => dPrimaryLoop_cut f e x
theorem dPrimaryLoop_cut : ∀ (f d : Nat) (x : Expr), Cut (dPrimaryLoop env f d x) (pPrimaryLoop env f x)
  | 0, _, _ => by unfold dPrimaryLoop pPrimaryLoop; exact .refl
  | f + 1, d, x => by
    unfold dPrimaryLoop pPrimaryLoop
    refine .bind .refl fun t => ?_
    by_cases hc : t = .ch (c! '(')
    · rw [if_pos hc, if_pos hc]
      by_cases hx : x.opcode ≠ .id
      · rw [if_pos hx, if_pos hx]; exact .refl
      · rw [if_neg hx, if_neg hx]
        exact .bind .refl fun _ => .bind (dApplication_cut f d _ _ _) fun y => dPrimaryLoop_cut f d y
    · rw [if_neg hc, if_neg hc]
      by_cases hb : t = .ch (c! '[')
      · rw [if_pos hb, if_pos hb]
        exact .bind .refl fun _ => .bind (dExpr_cut f d _) fun y => .bind .refl fun _ => dPrimaryLoop_cut f d _
      · rw [if_neg hb, if_neg hb]
        by_cases hf : t = .ch (c! '.')
        · rw [if_pos hf, if_pos hf]
          refine .bind .refl fun _ => .bind .refl fun lx => ?_
          cases lx.err with
          | some er => exact .refl
          | none =>
            dsimp only
            by_cases hi : lx.tok ≠ .id
            · rw [if_pos hi, if_pos hi]; exact .refl
            · rw [if_neg hi, if_neg hi]
              exact .bind .refl fun nm => dPrimaryLoop_cut f d _
        · rw [if_neg hf, if_neg hf]
          exact .refl
theorem dApplication_cut : ∀ (f d : Nat) (op : Op) (stop : Tok) (args : List Expr),
    Cut (dApplication env f d op stop args) (pApplication env f op stop args)
  | 0, _, _, _, _ => by unfold dApplication pApplication; exact .refl
  | f + 1, d, op, stop, args => by
    unfold dApplication pApplication
    refine .frame fun e => .bind .refl fun t => ?_
    dsimp only
    split
    · exact .bind (.frame fun e' => dExprList_cut f e' args) fun l => .refl
    · exact .refl
theorem dExprList_cut : ∀ (f d : Nat) (list : List Expr), Cut (dExprList env f d list) (pExprList env f list)
  | 0, _, _ => by unfold dExprList pExprList; exact .refl
  | f + 1, d, list => by
    unfold dExprList pExprList
    refine .bind (dExpr_cut f d _) fun x => ?_
    dsimp only
    refine .bind .refl fun t => ?_
    split
    · exact .refl
    · exact .bind .refl fun lx => dExprList_cut f d _
theorem dPrimary1_cut : ∀ (f d : Nat), Cut (dPrimary1 env f d) (pPrimary1 env f)
  | 0, _ => by unfold dPrimary1 pPrimary1; exact .refl
  | f + 1, d => by
    unfold dPrimary1 pPrimary1
    refine .frame fun e => .bind .refl fun lx => ?_
    obtain ⟨tok, val, err⟩ := lx
    cases err with
    | some er => exact .refl
    | none =>
      cases tok with
      | ch c =>
        dsimp only
        by_cases c1 : (c == c! '-') = true
        · rw [if_pos c1, if_pos c1]
          exact .bind (.frame fun e' => dPrimary_cut f e') fun x => .refl
        rw [if_neg c1, if_neg c1]
        by_cases c2 : (c == c! '!') = true
        · rw [if_pos c2, if_pos c2]
          exact .bind (.frame fun e' => dPrimary_cut f e') fun x => .refl
        rw [if_neg c2, if_neg c2]
        by_cases c3 : (c == c! '/') = true
        · rw [if_pos c3, if_pos c3]; exact .refl
        rw [if_neg c3, if_neg c3]
        by_cases c4 : (c == c! '@') = true
        · rw [if_pos c4, if_pos c4]; exact .refl
        rw [if_neg c4, if_neg c4]
        by_cases c5 : (c == c! '$') = true
        · rw [if_pos c5, if_pos c5]; exact .refl
        rw [if_neg c5, if_neg c5]
        by_cases c6 : (c == c! '(') = true
        · rw [if_pos c6, if_pos c6]
          exact .bind (.frame fun e' => dExpr_cut f e' _) fun x => .refl
        rw [if_neg c6, if_neg c6]
        by_cases c7 : (c == c! '[') = true
        · rw [if_pos c7, if_pos c7]; exact dApplication_cut f e _ _ _
        rw [if_neg c7, if_neg c7]
        exact .refl
      | _ => exact .refl
end

/-! ### Parentheses take four frames each -/

theorem bind_panic {x : P α} {f : α → P β} {s : LState} {m : String} (h : x s = .panic m) : (x >>= f) s = .panic m := by
  show P.bind x f s = _
  unfold P.bind
  rw [h]

theorem frame_few {k : Nat → P α} {s : LState} {d : Nat} (h : ∀ e, d = e + 1 → k e s = .panic "stack overflow") :
    frame d k s = .panic "stack overflow" := by
  cases d with
  | zero => rfl
  | succ e => exact h e rfl

theorem lex_paren (b t : Bytes) : lexExprP env ⟨⟨b, c! '(' :: t⟩, none⟩ = .ok (.plain (.ch (c! '(')), ⟨⟨c! '(' :: b, t⟩, none⟩) := rfl

theorem dExpr_parens : ∀ (n f d : Nat) (pri : Int) (b t : Bytes), 3 * n + 3 ≤ f → d < 4 * n + 3 →
    dExpr env f d pri ⟨⟨b, List.replicate n (c! '(') ++ t⟩, none⟩ = .panic "stack overflow"
  | n, f, d, pri, b, t, hf, hd => by
    obtain ⟨f, rfl⟩ : ∃ g, f = g + 3 := ⟨f - 3, by omega⟩
    unfold dExpr
    refine frame_few fun d1 e1 => bind_panic ?_
    unfold dPrimary
    refine frame_few fun d2 e2 => bind_panic ?_
    unfold dPrimary1
    refine frame_few fun d3 e3 => ?_
    cases n with
    | zero => omega
    | succ n =>
      rw [List.replicate_succ, List.cons_append, bind_ok (lex_paren _ _)]
      refine bind_panic (frame_few fun d4 e4 => ?_)
      exact dExpr_parens n f d4 0 _ t (by omega) (by omega)

/-! ### Eleven frames for an opening bracket -/

/-- A level of precedence. -/
theorem dExpr_level {f d : Nat} {pri : Int} {s s1 s2 s3 : LState} {x : Expr} {t : Tok} {lx : Lexeme}
    (h1 : pPrimary env (f + 1) s = .ok (x, s1)) (h2 : lookOp env s1 = .ok (t, s2)) (hp : (tok2op t).precedence ≥ pri)
    (h3 : lexOp env s2 = .ok (lx, s3)) (he : lx.err = none)
    (h4 : ∀ e, d = e + 1 → dExpr env f e ((tok2op lx.tok).precedence + (tok2op lx.tok).associativity) s3 = .panic "stack overflow") :
    dExpr env (f + 2) d pri s = .panic "stack overflow" := by
  unfold dExpr
  refine frame_few fun e he' => ?_
  rcases dPrimary_cut (env := env) (f + 1) e s with h | h
  · rw [h1] at h
    rw [bind_ok h]
    unfold dExprLoop
    rw [bind_ok h2, if_pos hp, bind_ok h3, he]
    exact bind_panic (h4 e he')
  · exact bind_panic h

/-- An expression that has an operator of every level in every bracket, after its first `1`. -/
def nestedTail : Nat → Bytes
  | 0 => b! "||1&&1==1<1+1*1"
  | n + 1 => b! "||1&&1==1<1+1*[1" ++ nestedTail n

theorem dExpr_six {f d : Nat} {b r : Bytes} {c : UInt8} {s : LState}
    (hs : s = ⟨⟨b, b! "1||1&&1==1<1+1*" ++ c :: r⟩, none⟩ ∨ s = ⟨⟨b, b! "||1&&1==1<1+1*" ++ c :: r⟩, some (intTok 1)⟩)
    (h : ∀ b' e, d = e + 6 → dExpr env (f + 3) e 6 ⟨⟨b', c :: r⟩, none⟩ = .panic "stack overflow") :
    dExpr env (f + 15) d 0 s = .panic "stack overflow" := by
  have key : ∀ (b : Bytes) (e : Nat), d = e + 1 →
      dExpr env (f + 13) e 1 ⟨⟨b, b! "1&&1==1<1+1*" ++ c :: r⟩, none⟩ = .panic "stack overflow" := by
    intro b e1 h1
    refine dExpr_level (s := ⟨⟨b, b! "1&&1==1<1+1*" ++ c :: r⟩, none⟩) rfl rfl (by decide) rfl rfl fun e2 h2 => ?_
    refine dExpr_level (f := f + 9) rfl rfl (by decide) rfl rfl fun e3 h3 => ?_
    refine dExpr_level (f := f + 7) rfl rfl (by decide) rfl rfl fun e4 h4 => ?_
    refine dExpr_level (f := f + 5) rfl rfl (by decide) rfl rfl fun e5 h5 => ?_
    refine dExpr_level (f := f + 3) rfl rfl (by decide) rfl rfl fun e6 h6 => ?_
    exact h _ e6 (by omega)
  rcases hs with rfl | rfl
  · exact dExpr_level (f := f + 13) rfl rfl (by decide) rfl rfl fun e h => key _ e h
  · exact dExpr_level (f := f + 13) rfl rfl (by decide) rfl rfl fun e h => key _ e h

theorem lex_bracket (b t : Bytes) : lexExprP env ⟨⟨b, c! '[' :: t⟩, none⟩ = .ok (.plain (.ch (c! '[')), ⟨⟨c! '[' :: b, t⟩, none⟩) := rfl

theorem dExpr_nested : ∀ (n f d : Nat) (b : Bytes) (s : LState), 18 * n + 18 ≤ f → d < 11 * n + 9 →
    (s = ⟨⟨b, c! '1' :: nestedTail n⟩, none⟩ ∨ s = ⟨⟨b, nestedTail n⟩, some (intTok 1)⟩) →
    dExpr env f d 0 s = .panic "stack overflow"
  | 0, f, d, b, s, hf, hd, hs => by
    obtain ⟨f, rfl⟩ : ∃ g, f = g + 15 := ⟨f - 15, by omega⟩
    refine dExpr_six (c := c! '1') (r := []) hs fun b' e he => ?_
    exact dExpr_parens 0 (f + 3) e 6 b' [c! '1'] (by omega) (by omega)
  | n + 1, f, d, b, s, hf, hd, hs => by
    obtain ⟨f, rfl⟩ : ∃ g, f = g + 17 := ⟨f - 17, by omega⟩
    refine dExpr_six (f := f + 2) (c := c! '[') (r := c! '1' :: nestedTail n) hs fun b' e he => ?_
    unfold dExpr
    refine frame_few fun d1 e1 => bind_panic ?_
    unfold dPrimary
    refine frame_few fun d2 e2 => bind_panic ?_
    unfold dPrimary1
    refine frame_few fun d3 e3 => ?_
    rw [bind_ok (lex_bracket _ _)]
    show dApplication env (f + 2) d3 .array (.ch (c! ']')) [] _ = _
    unfold dApplication
    refine frame_few fun d4 e4 => ?_
    have hl : ∃ b'', lookExpr env ⟨⟨c! '[' :: b', c! '1' :: nestedTail n⟩, none⟩ = .ok (.int, ⟨⟨b'', nestedTail n⟩, some (intTok 1)⟩) := by
      cases n <;> exact ⟨_, rfl⟩
    obtain ⟨b'', hl⟩ := hl
    rw [bind_ok hl]
    dsimp only
    rw [if_pos (by decide)]
    refine bind_panic (frame_few fun d5 e5 => ?_)
    unfold dExprList
    refine bind_panic ?_
    exact dExpr_nested n f d5 b'' _ (by omega) (by omega) (.inr rfl)

theorem nestedTail_openers (n : Nat) : openers (nestedTail n) = n := by
  induction n with
  | zero => rfl
  | succ n ih =>
    rw [nestedTail, openers_append, ih]
    show 1 + n = _
    omega

theorem nestedTail_length (n : Nat) : (nestedTail n).length = 16 * n + 15 := by
  induction n with
  | zero => rfl
  | succ n ih => rw [nestedTail, List.length_append, ih]; show 16 + _ = _; omega

end JP
