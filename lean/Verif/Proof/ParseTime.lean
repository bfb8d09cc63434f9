import Mathlib.Tactic.SplitIfs
import Verif.Model.ParseTime
import Verif.Proof.ParseWF
import Verif.Proof.ParseDepth
/-!
The parsers with a clock do what the parsers do, and take a number of steps that is linear in what is left to parse.
-/
namespace JP

variable {env : Env} {α β : Type}

/-- The action with a clock does the same from this state, takes at most `c` steps, and its result and the steps taken are such. -/
def Clocked (x : T α) (y : P α) (s : LState) (c : Nat) (Q : α → LState → Nat → Prop) : Prop :=
  (x s).1 = y s ∧ (x s).2 ≤ c ∧ ∀ a s', y s = .ok (a, s') → Q a s' (x s).2

namespace Clocked
variable {x : T α} {y : P α} {f : α → T β} {g : α → P β} {s : LState} {c d : Nat} {Q R : α → LState → Nat → Prop} {U : β → LState → Nat → Prop}

theorem bind (h : Clocked x y s c R) (hc : c ≤ d)
    (k : ∀ a s' n, R a s' n → n ≤ c → Clocked (f a) (g a) s' (d - n) fun b s'' m => U b s'' (n + m)) : Clocked (x >>= f) (y >>= g) s d U := by
  obtain ⟨h1, h2, h3⟩ := h
  show (T.bind x f s).1 = P.bind y g s ∧ (T.bind x f s).2 ≤ d ∧ ∀ a s', P.bind y g s = .ok (a, s') → U a s' (T.bind x f s).2
  unfold T.bind P.bind
  generalize x s = r at h1 h2 h3
  obtain ⟨r, n⟩ := r
  simp only at h1 h2 h3
  subst h1
  rcases hy : y s with ⟨a, s'⟩ | e | m | _
  · obtain ⟨k1, k2, k3⟩ := k a s' n (h3 a s' hy) h2
    exact ⟨k1, by dsimp only; omega, k3⟩
  all_goals exact ⟨rfl, Nat.le_trans h2 hc, fun _ _ h => by cases h⟩
/-- A step first. -/
theorem tick {y : P β} {f : Unit → T β} {n : Nat} (hn : n ≤ d) (k : Clocked (f ()) y s (d - n) fun b s'' m => U b s'' (n + m)) :
    Clocked (T.tick n >>= f) y s d U := by
  obtain ⟨k1, k2, k3⟩ := k
  refine ⟨k1, ?_, k3⟩
  show n + (f () s).2 ≤ d
  omega
theorem mono (h : Clocked x y s c R) (hc : c ≤ d) (k : ∀ a s' n, R a s' n → n ≤ c → Q a s' n) : Clocked x y s d Q :=
  ⟨h.1, Nat.le_trans h.2.1 hc, fun a s' e => k a s' _ (h.2.2 a s' e) h.2.1⟩
theorem pure {a : α} (h : Q a s 0) : Clocked (Pure.pure a) (Pure.pure a) s c Q := ⟨rfl, Nat.zero_le _, fun _ _ e => by cases e; exact h⟩
theorem fail {e : PErr} : Clocked (α := α) (T.fail e) (P.fail e) s c Q := ⟨rfl, Nat.zero_le _, fun _ _ h => by cases h⟩
theorem panic {m : String} : Clocked (α := α) (T.panic m) (P.panic m) s c Q := ⟨rfl, Nat.zero_le _, fun _ _ h => by cases h⟩
theorem stuck : Clocked (α := α) T.stuck P.stuck s c Q := ⟨rfl, Nat.zero_le _, fun _ _ h => by cases h⟩
theorem of (h : ∀ a s', y s = .ok (a, s') → Q a s' 0) : Clocked (T.of y) y s c Q := ⟨rfl, Nat.zero_le _, h⟩
theorem val {y : P α} (h : ∀ s a s', y s = .ok (a, s') → s' = s) : Clocked (T.of y) y s c fun _ s' n => s' = s ∧ n = 0 :=
  .of fun a s' e => ⟨h s a s' e, rfl⟩
theorem offset : Clocked (T.of P.offset) P.offset s c fun _ s' n => s' = s ∧ n = 0 := .val fun _ _ _ h => by cases h; rfl
end Clocked

/-- What a call of the scanner leaves. -/
structure Took (s : LState) (lx : Lexeme) (s' : LState) (n : Nat) : Prop where
  steps : n + mu s' + lx.weight ≤ mu s + 1
  left : mu s' + lx.weight ≤ mu s
  none : s'.peek = none
  same : ∀ l, s.peek = some l → lx = l ∧ n = 1

theorem Clocked.lexWith {g : Rd → Option (Lexeme × Rd)} (hg : ∀ r, ∃ x, g r = some x ∧ ScanOk env r.text r.rest.length x) {s : LState} :
    Clocked (T.scan (lexWith g)) (JP.lexWith g) s (mu s + 1) (Took s) := by
  cases hp : s.peek with
  | some l =>
    have e : JP.lexWith g s = .ok (l, { s with peek := none }) := by unfold JP.lexWith; rw [hp]
    refine ⟨rfl, ?_, ?_⟩
    · unfold T.scan; rw [e]; simp
    · intro a s' h
      rw [e] at h
      cases h
      unfold T.scan
      rw [e]
      refine ⟨?_, ?_, rfl, ?_⟩
      · simp [mu, hp]; omega
      · simp [mu, hp]
      · intro l' h; rw [hp] at h; cases h; exact ⟨rfl, by simp⟩
  | none =>
    obtain ⟨⟨lx, r⟩, h1, h2⟩ := hg s.rd
    have e : JP.lexWith g s = .ok (lx, { s with rd := r }) := by unfold JP.lexWith; rw [hp]; simp only [h1]
    have hle := h2.le
    have hlt := h2.lt
    simp only at hle hlt
    have hw : lx.weight ≤ s.rd.rest.length - r.rest.length := by
      unfold Lexeme.weight
      split
      · next h => have := hlt h.1 h.2; omega
      · omega
    refine ⟨rfl, ?_, ?_⟩
    · unfold T.scan; rw [e]; simp [mu, hp]; omega
    · intro a s' h
      rw [e] at h
      cases h
      unfold T.scan
      rw [e]
      refine ⟨?_, ?_, hp, ?_⟩
      · simp [mu, hp]; omega
      · simp [mu, hp]; omega
      · intro l' h; rw [hp] at h; cases h

theorem Clocked.lex {s : LState} : Clocked (tLexExpr env) (lexExprP env) s (mu s + 1) (Took s) := .lexWith (lexExpr_ok env)
theorem Clocked.lexPath {s : LState} : Clocked (tLexPath env) (lexPathP env) s (mu s + 1) (Took s) := .lexWith (lexPath_ok env)

theorem Clocked.unget {s : LState} {lx : Lexeme} {c : Nat} :
    Clocked (T.of (ungetP lx)) (ungetP lx) s c fun _ s' n => s' = { s with peek := some lx } ∧ n = 0 := by
  refine .of ?_
  intro a s' h
  unfold ungetP at h
  cases hp : s.peek with
  | some l => rw [hp] at h; cases h
  | none => rw [hp] at h; cases h; exact ⟨rfl, rfl⟩

/-- What looking at a token leaves. -/
structure Saw (s : LState) (t : Tok) (s' : LState) (n : Nat) : Prop where
  steps : n + mu s' ≤ mu s + 2
  left : mu s' ≤ mu s
  next : ∃ lx, s'.peek = some lx ∧ t = if lx.err.isSome then .error else lx.tok

theorem Clocked.lookWith {x : T Lexeme} {y : P Lexeme} {s : LState} (h : Clocked x y s (mu s + 1) (Took s)) :
    Clocked (tLookWith x) (JP.lookWith y) s (mu s + 2) (Saw s) := by
  unfold tLookWith JP.lookWith
  refine .tick (by omega) (.bind h (by omega) fun lx s1 n1 h1 l1 => .bind .unget (Nat.le_refl _) fun _ s2 n2 h2 _ => .pure ?_)
  obtain ⟨rfl, rfl⟩ := h2
  have a := h1.steps
  have b := h1.left
  have c := h1.none
  simp only [mu, c] at a b
  refine ⟨?_, ?_, lx, rfl, rfl⟩ <;> simp only [mu] at * <;> omega

theorem Clocked.look {s : LState} : Clocked (tLookExpr env) (lookExpr env) s (mu s + 2) (Saw s) := .lookWith .lex
theorem Clocked.lookPath {s : LState} : Clocked (tLookPath env) (JP.lookPath env) s (mu s + 2) (Saw s) := .lookWith .lexPath

theorem tLexOp_eq : tLexOp env = (T.tick 1 >>= fun _ => tLexExpr env >>= fun lx => Pure.pure (opLexeme lx)) := rfl

theorem Clocked.lexOp {s : LState} : Clocked (tLexOp env) (JP.lexOp env) s (mu s + 2) fun lx s' n =>
    n + mu s' + lx.weight ≤ mu s + 2 ∧ mu s' + lx.weight ≤ mu s ∧ s'.peek = none ∧ opLexeme lx = lx ∧
      ∀ l, s.peek = some l → lx = opLexeme l ∧ n = 2 := by
  rw [lexOp_eq, tLexOp_eq]
  refine .tick (by omega) (.bind .lex (by omega) fun lx s1 n1 h1 l1 => .pure ?_)
  have a := h1.steps
  have b := h1.left
  have c := opLexeme_weight lx
  refine ⟨by omega, by omega, h1.none, opLexeme_twice lx, fun l h => ?_⟩
  obtain ⟨rfl, rfl⟩ := h1.same l h
  exact ⟨rfl, rfl⟩

theorem Clocked.lookOp {s : LState} : Clocked (tLookOp env) (JP.lookOp env) s (mu s + 3) fun t s' n =>
    n + mu s' ≤ mu s + 3 ∧ mu s' ≤ mu s ∧ ∃ lx, s'.peek = some lx ∧ opLexeme lx = lx ∧ t = lx.tok := by
  unfold tLookOp JP.lookOp
  refine .tick (by omega) (.bind .lexOp (by omega) fun lx s1 n1 h1 l1 => .bind .unget (Nat.le_refl _) fun _ s2 n2 h2 _ => .pure ?_)
  obtain ⟨rfl, rfl⟩ := h2
  obtain ⟨a, b, c, d, _⟩ := h1
  simp only [mu, c] at a b
  refine ⟨?_, ?_, lx, rfl, d, rfl⟩ <;> simp only [mu] at * <;> omega

theorem Clocked.expect {x : T Lexeme} {y : P Lexeme} {s : LState} {t : Tok} (ht : t ≠ .eof) (h : Clocked x y s (mu s + 1) (Took s)) :
    Clocked (tExpect x t) (JP.expect y t) s (mu s + 2) fun _ s' n => n + mu s' ≤ mu s + 1 ∧ mu s' < mu s := by
  unfold tExpect JP.expect
  refine .tick (by omega) (.bind h (by omega) fun lx s1 n1 h1 l1 => .bind .offset (Nat.le_refl _) fun off s2 n2 h2 _ => ?_)
  obtain ⟨rfl, rfl⟩ := h2
  have a := h1.steps
  have b := h1.left
  cases he : lx.err with
  | some e => exact .fail
  | none =>
    dsimp only
    by_cases hn : lx.tok ≠ t
    · rw [if_pos hn, if_pos hn]; exact .fail
    · rw [if_neg hn, if_neg hn]
      have hn : lx.tok = t := by simpa using hn
      have hw : lx.weight = 1 := weight_one (by rw [hn]; exact ht) he
      exact .pure ⟨by omega, by omega⟩

/-- A character that was seen is a token to be taken. -/
theorem seen_weight {lx : Lexeme} {c : UInt8} (h : Tok.ch c = if lx.err.isSome then .error else lx.tok) : lx.weight = 1 := by
  obtain ⟨tok, val, err⟩ := lx
  cases err with
  | some e => simp at h
  | none => simp at h; subst h; simp [Lexeme.weight]

/-- So is an operator. -/
theorem op_weight {lx : Lexeme} (h : opLexeme lx = lx) (h2 : 0 ≤ (tok2op lx.tok).precedence) : lx.weight = 1 := by
  have h3 : (tok2op .eof).precedence < 0 := by decide
  have h4 : (tok2op .error).precedence < 0 := by decide
  refine weight_one (fun e => by rw [e] at h2; omega) ?_
  cases he : lx.err with
  | none => rfl
  | some e =>
    have : lx.tok = .error := by rw [← h]; simp [opLexeme, he]
    rw [this] at h2
    omega

theorem mu_peek {s : LState} {l : Lexeme} (h : s.peek = some l) : l.weight ≤ mu s := by simp [mu, h]

/-- A call of the scanner that succeeds. -/
theorem Clocked.scan {y : P α} {s s1 : LState} {a : α} (e : y s = .ok (a, s1)) :
    Clocked (T.scan y) y s (1 + (s.rd.rest.length - s1.rd.rest.length)) fun _ s' n => s' = s1 ∧ n = 1 + (s.rd.rest.length - s1.rd.rest.length) := by
  have h : (T.scan y s).2 = 1 + (s.rd.rest.length - s1.rd.rest.length) := by unfold T.scan; rw [e]
  refine ⟨rfl, by rw [h]; exact Nat.le_refl _, fun b s' h2 => ?_⟩
  rw [e] at h2
  cases h2
  exact ⟨rfl, h⟩

/-- Reading a regular expression. -/
theorem Clocked.regexp {s : LState} {c : UInt8} (hp : s.peek = none) :
    Clocked (T.scan (fun s => let (lx, r) := lexRegexp c s.rd; .ok (lx, { s with rd := r })))
      (fun s => let (lx, r) := lexRegexp c s.rd; .ok (lx, { s with rd := r }) : P Lexeme) s (mu s + 1)
      fun _ s' n => n + mu s' ≤ mu s + 1 ∧ mu s' ≤ mu s := by
  have hle : (lexRegexp c s.rd).2.rest.length ≤ s.rd.rest.length := (lexRegexpGo_ok c s.rd.rest s.rd.before []).2.1
  refine (Clocked.scan (a := (lexRegexp c s.rd).1) (s1 := { s with rd := (lexRegexp c s.rd).2 }) rfl).mono ?_ ?_
  · simp only [mu, hp]; omega
  · rintro _ s' n ⟨rfl, rfl⟩ _
    simp only [mu, hp]
    omega

mutual
theorem tExpr_runs : ∀ (f : Nat) (pri : Nat) (s : LState),
    Clocked (tExpr env f pri) (pExpr env f pri) s (20 * mu s + 12) fun _ s' n => n + 20 * (mu s' + 1) ≤ 20 * mu s + 12
  | 0, _, _ => by unfold tExpr pExpr; exact .stuck
  | f + 1, pri, s => by
    unfold tExpr pExpr
    refine .tick (by omega) (.bind (tPrimary_runs f s) (by omega) fun x s1 n1 h1 l1 => ?_)
    exact (tExprLoop_runs f pri x s1).mono (by omega) fun _ s2 n2 h2 _ => by omega
theorem tExprLoop_runs : ∀ (f : Nat) (pri : Nat) (x : Expr) (s : LState),
    Clocked (tExprLoop env f pri x) (pExprLoop env f pri x) s (20 * mu s + 4) fun _ s' n => n + 20 * mu s' ≤ 20 * mu s + 4
  | 0, _, _, _ => by unfold tExprLoop pExprLoop; exact .stuck
  | f + 1, pri, x, s => by
    unfold tExprLoop pExprLoop
    refine .tick (by omega) (.bind .lookOp (by omega) fun t s1 n1 h1 l1 => ?_)
    obtain ⟨h1, h2, l, h3, h4, rfl⟩ := h1
    by_cases hge : (tok2op l.tok).precedence ≥ (pri : Int)
    · rw [if_pos hge, if_pos hge]
      have hw := op_weight h4 (by omega : 0 ≤ (tok2op l.tok).precedence)
      have hm := mu_peek h3
      refine .bind .lexOp (by omega) fun lx s2 n2 h5 l2 => ?_
      obtain ⟨a, b, _, _, h5⟩ := h5
      obtain ⟨h6, rfl⟩ := h5 l h3
      obtain rfl : lx = l := h6.trans h4
      cases he : lx.err with
      | some er => exact .fail
      | none =>
        have h6 : 0 ≤ (tok2op lx.tok).precedence := by omega
        obtain ⟨k, hk⟩ : ∃ k : Nat, (tok2op lx.tok).precedence = k := ⟨(tok2op lx.tok).precedence.toNat, by omega⟩
        have e : (tok2op lx.tok).precedence + (tok2op lx.tok).associativity = ((k + 1 : Nat) : Int) := by rw [hk]; rfl
        dsimp only
        rw [e]
        refine .bind (tExpr_runs f (k + 1) s2) (by omega) fun y s3 n3 h7 l3 => ?_
        exact (tExprLoop_runs f pri _ s3).mono (by omega) fun _ s4 n4 h8 _ => by omega
    · rw [if_neg hge, if_neg hge]; exact .pure (by omega)
theorem tPrimary_runs : ∀ (f : Nat) (s : LState),
    Clocked (tPrimary env f) (pPrimary env f) s (20 * mu s + 7) fun _ s' n => n + 20 * (mu s' + 1) ≤ 20 * mu s + 7
  | 0, _ => by unfold tPrimary pPrimary; exact .stuck
  | f + 1, s => by
    unfold tPrimary pPrimary
    refine .tick (by omega) (.bind (tPrimary1_runs f s) (by omega) fun x s1 n1 h1 l1 => ?_)
    exact (tPrimaryLoop_runs f x s1).mono (by omega) fun _ s2 n2 h2 _ => by omega
theorem tPrimaryLoop_runs : ∀ (f : Nat) (x : Expr) (s : LState),
    Clocked (tPrimaryLoop env f x) (pPrimaryLoop env f x) s (20 * mu s + 3) fun _ s' n => n + 20 * mu s' ≤ 20 * mu s + 3
  | 0, _, _ => by unfold tPrimaryLoop pPrimaryLoop; exact .stuck
  | f + 1, x, s => by
    unfold tPrimaryLoop pPrimaryLoop
    refine .tick (by omega) (.bind .look (by omega) fun t s1 n1 h1 l1 => ?_)
    obtain ⟨h1, h0, l, h2, h3⟩ := h1
    by_cases hc : t = .ch (c! '(')
    · rw [if_pos hc, if_pos hc]
      subst hc
      have hw := seen_weight h3
      have hm := mu_peek h2
      by_cases hx : x.opcode ≠ .id
      · rw [if_pos hx, if_pos hx]; exact .fail
      · rw [if_neg hx, if_neg hx]
        refine .bind .lex (by omega) fun lx s2 n2 h4 l2 => ?_
        obtain ⟨a, b, _, h4⟩ := h4
        obtain ⟨rfl, rfl⟩ := h4 l h2
        refine .bind (tApplication_runs f _ _ _ s2 (by simp)) (by omega) fun y s3 n3 h5 l3 => ?_
        exact (tPrimaryLoop_runs f y s3).mono (by omega) fun _ s4 n4 h6 _ => by omega
    · rw [if_neg hc, if_neg hc]
      by_cases hb : t = .ch (c! '[')
      · rw [if_pos hb, if_pos hb]
        subst hb
        have hw := seen_weight h3
        have hm := mu_peek h2
        refine .bind .lex (by omega) fun lx s2 n2 h4 l2 => ?_
        obtain ⟨a, b, _, h4⟩ := h4
        obtain ⟨rfl, rfl⟩ := h4 l h2
        refine .bind (tExpr_runs f 0 s2) (by omega) fun y s3 n3 h5 l3 => ?_
        refine .bind (.expect (by simp) .lex) (by omega) fun _ s4 n4 h6 l4 => ?_
        exact (tPrimaryLoop_runs f _ s4).mono (by omega) fun _ s5 n5 h7 _ => by omega
      · rw [if_neg hb, if_neg hb]
        by_cases hf : t = .ch (c! '.')
        · rw [if_pos hf, if_pos hf]
          subst hf
          have hw := seen_weight h3
          have hm := mu_peek h2
          refine .bind .lex (by omega) fun lx s2 n2 h4 l2 => ?_
          obtain ⟨a, b, _, h4⟩ := h4
          obtain ⟨rfl, rfl⟩ := h4 l h2
          refine .bind .lex (by omega) fun lx s3 n3 h5 l3 => ?_
          obtain ⟨a', b', _, _⟩ := h5
          cases lx.err with
          | some er => exact .fail
          | none =>
            dsimp only
            by_cases hi : lx.tok ≠ .id
            · rw [if_pos hi, if_pos hi]; exact .fail
            · rw [if_neg hi, if_neg hi]
              refine .bind (.val (lx_s lx)) (Nat.zero_le _) fun nm s4 n4 h6 _ => ?_
              obtain ⟨rfl, rfl⟩ := h6
              exact (tPrimaryLoop_runs f _ s4).mono (by omega) fun _ s5 n5 h7 _ => by omega
        · rw [if_neg hf, if_neg hf]
          exact .pure (by omega)
theorem tApplication_runs : ∀ (f : Nat) (op : Op) (stop : Tok) (args : List Expr) (s : LState), stop ≠ .eof →
    Clocked (tApplication env f op stop args) (pApplication env f op stop args) s (20 * mu s + 18) fun _ s' n => n + 20 * (mu s' + 1) ≤ 20 * mu s + 5
  | 0, _, _, _, _, _ => by unfold tApplication pApplication; exact .stuck
  | f + 1, op, stop, args, s, hs => by
    unfold tApplication pApplication
    refine .tick (by omega) (.bind .look (by omega) fun t s1 n1 h1 l1 => ?_)
    obtain ⟨h1, h0, _⟩ := h1
    dsimp only
    by_cases ht : t ≠ stop
    · rw [if_pos ht, if_pos ht]
      refine .bind (tExprList_runs f args s1) (by omega) fun l s2 n2 h2 l2 => ?_
      refine .bind (.expect hs .lex) (by omega) fun _ s3 n3 h3 l3 => .pure (by omega)
    · rw [if_neg ht, if_neg ht]
      refine .bind (R := fun _ s' n => s' = s1 ∧ n = 0) (c := 0) (.pure ⟨rfl, rfl⟩) (by omega) fun l s2 n2 h2 l2 => ?_
      obtain ⟨rfl, rfl⟩ := h2
      refine .bind (.expect hs .lex) (by omega) fun _ s3 n3 h3 l3 => .pure (by omega)
theorem tExprList_runs : ∀ (f : Nat) (list : List Expr) (s : LState),
    Clocked (tExprList env f list) (pExprList env f list) s (20 * mu s + 15) fun _ s' n => n + 20 * (mu s' + 1) ≤ 20 * mu s + 15
  | 0, _, _ => by unfold tExprList pExprList; exact .stuck
  | f + 1, list, s => by
    unfold tExprList pExprList
    refine .tick (by omega) (.bind (tExpr_runs f 0 s) (by omega) fun x s1 n1 h1 l1 => ?_)
    refine .bind .look (by omega) fun t s2 n2 h2 l2 => ?_
    obtain ⟨h2, h0, l, h3, h4⟩ := h2
    by_cases ht : t ≠ .ch (c! ',')
    · rw [if_pos ht, if_pos ht]; exact .pure (by omega)
    · rw [if_neg ht, if_neg ht]
      have ht : t = .ch (c! ',') := by simpa using ht
      subst ht
      have hw := seen_weight h4
      have hm := mu_peek h3
      refine .bind .lex (by omega) fun lx s3 n3 h5 l3 => ?_
      obtain ⟨a, b, _, h5⟩ := h5
      obtain ⟨rfl, rfl⟩ := h5 l h3
      exact (tExprList_runs f _ s3).mono (by omega) fun _ s5 n5 h7 _ => by omega
theorem tPrimary1_runs : ∀ (f : Nat) (s : LState),
    Clocked (tPrimary1 env f) (pPrimary1 env f) s (20 * mu s + 3) fun _ s' n => n + 20 * (mu s' + 1) ≤ 20 * mu s + 3
  | 0, _ => by unfold tPrimary1 pPrimary1; exact .stuck
  | f + 1, s => by
    unfold tPrimary1 pPrimary1
    refine .tick (by omega) (.bind .lex (by omega) fun lx s1 n1 h1 l1 => ?_)
    obtain ⟨a, b, hn, _⟩ := h1
    cases he : lx.err with
    | some er => exact .fail
    | none =>
      dsimp only
      cases ht : lx.tok with
      | id =>
        have hw : lx.weight = 1 := weight_one (by rw [ht]; simp) he
        dsimp only
        refine .bind (.val (lx_s lx)) (Nat.zero_le _) fun nm s2 n2 h2 _ => ?_
        obtain ⟨rfl, rfl⟩ := h2
        split_ifs <;> exact .pure (by omega)
      | int =>
        have hw : lx.weight = 1 := weight_one (by rw [ht]; simp) he
        dsimp only
        refine .bind (.val (lx_i lx)) (Nat.zero_le _) fun nm s2 n2 h2 _ => ?_
        obtain ⟨rfl, rfl⟩ := h2
        exact .pure (by omega)
      | real =>
        have hw : lx.weight = 1 := weight_one (by rw [ht]; simp) he
        dsimp only
        refine .bind (.val (lx_f lx)) (Nat.zero_le _) fun nm s2 n2 h2 _ => ?_
        obtain ⟨rfl, rfl⟩ := h2
        exact .pure (by omega)
      | string =>
        have hw : lx.weight = 1 := weight_one (by rw [ht]; simp) he
        dsimp only
        refine .bind (.val (lx_s lx)) (Nat.zero_le _) fun nm s2 n2 h2 _ => ?_
        obtain ⟨rfl, rfl⟩ := h2
        exact .pure (by omega)
      | ch c =>
        have hw : lx.weight = 1 := weight_one (by rw [ht]; simp) he
        dsimp only
        split_ifs
        · refine .bind (tPrimary_runs f s1) (by omega) fun x s2 n2 h2 _ => .pure (by omega)
        · refine .bind (tPrimary_runs f s1) (by omega) fun x s2 n2 h2 _ => .pure (by omega)
        · refine .bind .offset (Nat.zero_le _) fun off s2 n2 h2 _ => ?_
          obtain ⟨rfl, rfl⟩ := h2
          refine .bind (.regexp hn) (by omega) fun l2 s3 n3 h3 _ => ?_
          cases l2.err with
          | some er => exact .fail
          | none =>
            dsimp only
            refine .bind (.val (lx_s l2)) (Nat.zero_le _) fun nm s4 n4 h4 _ => ?_
            obtain ⟨rfl, rfl⟩ := h4
            split_ifs
            · exact .pure (by omega)
            · exact .fail
        · exact .pure (by omega)
        · exact .pure (by omega)
        · refine .bind (tExpr_runs f 0 s1) (by omega) fun x s2 n2 h2 _ => ?_
          refine .bind (.expect (by simp) .lex) (by omega) fun _ s3 n3 h3 l3 => .pure (by omega)
        · exact (tApplication_runs f _ _ _ s1 (by simp)).mono (by omega) fun _ s2 n2 h2 _ => by omega
        · exact .fail
      | _ => exact .fail
end


/-- An action whose fuel depends on the state. -/
theorem Clocked.fuel {g : Nat → T α} {k : Nat → P α} {n : LState → Nat} {s : LState} {c : Nat} {Q : α → LState → Nat → Prop}
    (h : Clocked (g (n s)) (k (n s)) s c Q) : Clocked (fun s => g (n s) s) (fun s => k (n s) s) s c Q := h

theorem tScriptExpr_runs {s : LState} :
    Clocked (tScriptExpr env) (parseScriptExpr env) s (20 * mu s + 12) fun _ s' n => n + 20 * (mu s' + 1) ≤ 20 * mu s + 12 :=
  Clocked.fuel (g := fun f => tExpr env f 0) (k := fun f => pExpr env f 0) (n := exprFuel) (tExpr_runs (exprFuel s) 0 s)

theorem tParenExpr_runs {s : LState} :
    Clocked (tParenExpr env) (pParenExpr env) s (20 * mu s + 13) fun _ s' n => n + 20 * (mu s' + 1) ≤ 20 * mu s + 13 := by
  unfold tParenExpr pParenExpr
  refine .tick (by omega) (.bind tScriptExpr_runs (by omega) fun x s1 n1 h1 l1 => ?_)
  exact .bind (.expect (by simp) .lexPath) (by omega) fun _ s2 n2 h2 l2 => .pure (by omega)

theorem tMember_runs {s : LState} :
    Clocked (tMember env) (pMember env) s (20 * mu s + 2) fun _ s' n => n + 20 * (mu s' + 1) ≤ 20 * mu s + 2 := by
  unfold tMember pMember
  refine .tick (by omega) (.bind .lexPath (by omega) fun lx s1 n1 h1 l1 => ?_)
  obtain ⟨a, b, _, _⟩ := h1
  cases he : lx.err with
  | some er => exact .fail
  | none =>
    dsimp only
    split_ifs with h1 h2 h3 h4
    · have hw : lx.weight = 1 := weight_one (by rw [h1]; simp) he
      exact .pure (by omega)
    · have hw : lx.weight = 1 := weight_one (by rw [h2]; simp) he
      refine .bind (.val (lx_s lx)) (Nat.zero_le _) fun nm s2 n2 h2 _ => ?_
      obtain ⟨rfl, rfl⟩ := h2
      exact .pure (by omega)
    · have hw : lx.weight = 1 := weight_one (by rw [h3]; simp) he
      refine .bind (.val (lx_i lx)) (Nat.zero_le _) fun nm s2 n2 h2 _ => ?_
      obtain ⟨rfl, rfl⟩ := h2
      exact .pure (by omega)
    · have hw : lx.weight = 1 := weight_one (by rw [h4]; simp) he
      exact .bind tParenExpr_runs (by omega) fun x s2 n2 h2 _ => .pure (by omega)
    · exact .bind .offset (Nat.zero_le _) fun off s2 n2 h2 _ => .fail

theorem tSliceVal_runs {s : LState} :
    Clocked (tSliceVal env) (pSliceVal env) s (20 * mu s + 15) fun _ s' n => n + 20 * mu s' ≤ 20 * mu s + 15 := by
  unfold tSliceVal pSliceVal
  refine .tick (by omega) (.bind .lexPath (by omega) fun lx s1 n1 h1 l1 => ?_)
  obtain ⟨a, b, _, _⟩ := h1
  split_ifs
  · exact .bind tParenExpr_runs (by omega) fun x s2 n2 h2 _ => .pure (by omega)
  · refine .bind (.val (lx_i lx)) (Nat.zero_le _) fun nm s2 n2 h2 _ => ?_
    obtain ⟨rfl, rfl⟩ := h2
    exact .pure (by omega)
  · exact .bind .offset (Nat.zero_le _) fun off s2 n2 h2 _ => .fail

theorem tSlice_runs {s : LState} {start : Option Bound} :
    Clocked (tSlice env start) (pSlice env start) s (20 * mu s + 22) fun _ s' n => n + 20 * mu s' ≤ 20 * mu s + 22 := by
  unfold tSlice pSlice
  refine .tick (by omega) (.bind .lookPath (by omega) fun t s1 n1 h1 l1 => ?_)
  obtain ⟨h1, h0, _⟩ := h1
  by_cases h : t = .ch (c! ',') ∨ t = .ch (c! ']')
  · rw [if_pos h, if_pos h]; exact .pure (by omega)
  · rw [if_neg h, if_neg h]
    dsimp only
    by_cases h : t ≠ .ch (c! ':')
    · rw [if_pos h, if_pos h]
      refine .bind tSliceVal_runs (by omega) fun x s2 n2 h2 l2 => .bind (R := fun _ s' n => s' = s2 ∧ n = 0) (c := 0) (.pure ⟨rfl, rfl⟩)
        (Nat.zero_le _) fun stop s2' n3' h3 _ => ?_
      obtain ⟨rfl, rfl⟩ := h3
      refine .bind .lookPath (by omega) fun t s3 n3 h3 l3 => ?_
      obtain ⟨h3, h4, l, h5, h6⟩ := h3
      by_cases h : t = .ch (c! ']') ∨ t = .ch (c! ',')
      · rw [if_pos h, if_pos h]; exact .pure (by omega)
      · rw [if_neg h, if_neg h]
        by_cases h : t = .ch (c! ':')
        · rw [if_pos h, if_pos h]
          subst h
          have hw := seen_weight h6
          have hm := mu_peek h5
          refine .bind .lexPath (by omega) fun lx s4 n4 h7 l4 => ?_
          obtain ⟨a, b, _, h7⟩ := h7
          obtain ⟨rfl, rfl⟩ := h7 l h5
          refine .bind .lookPath (by omega) fun t s5 n5 h8 l5 => ?_
          obtain ⟨h8, h9, _⟩ := h8
          by_cases h : t = .ch (c! ',') ∨ t = .ch (c! ']')
          · rw [if_pos h, if_pos h]; exact .pure (by omega)
          · rw [if_neg h, if_neg h]
            exact .bind tSliceVal_runs (by omega) fun x s6 n6 h10 _ => .pure (by omega)
        · rw [if_neg h, if_neg h]
          refine .bind .lookPath (by omega) fun t s4 n4 h7 l4 => ?_
          exact .bind .offset (Nat.zero_le _) fun off s2 n2 h2 _ => .fail
    · rw [if_neg h, if_neg h]
      refine .bind (R := fun _ s' n => s' = s1 ∧ n = 0) (c := 0) (.pure ⟨rfl, rfl⟩) (Nat.zero_le _) fun stop s2' n3' h3 _ => ?_
      obtain ⟨rfl, rfl⟩ := h3
      refine .bind .lookPath (by omega) fun t s3 n3 h3 l3 => ?_
      obtain ⟨h3, h4, l, h5, h6⟩ := h3
      by_cases h : t = .ch (c! ']') ∨ t = .ch (c! ',')
      · rw [if_pos h, if_pos h]; exact .pure (by omega)
      · rw [if_neg h, if_neg h]
        by_cases h : t = .ch (c! ':')
        · rw [if_pos h, if_pos h]
          subst h
          have hw := seen_weight h6
          have hm := mu_peek h5
          refine .bind .lexPath (by omega) fun lx s4 n4 h7 l4 => ?_
          obtain ⟨a, b, _, h7⟩ := h7
          obtain ⟨rfl, rfl⟩ := h7 l h5
          refine .bind .lookPath (by omega) fun t s5 n5 h8 l5 => ?_
          obtain ⟨h8, h9, _⟩ := h8
          by_cases h : t = .ch (c! ',') ∨ t = .ch (c! ']')
          · rw [if_pos h, if_pos h]; exact .pure (by omega)
          · rw [if_neg h, if_neg h]
            exact .bind tSliceVal_runs (by omega) fun x s6 n6 h10 _ => .pure (by omega)
        · rw [if_neg h, if_neg h]
          refine .bind .lookPath (by omega) fun t s4 n4 h7 l4 => ?_
          exact .bind .offset (Nat.zero_le _) fun off s2 n2 h2 _ => .fail

theorem tVal_runs {s : LState} :
    Clocked (tVal env) (pVal env) s (20 * mu s + 24) fun _ s' n => n + 20 * (mu s' + 1) ≤ 20 * mu s + 24 := by
  unfold tVal pVal
  refine .tick (by omega) (.bind .lexPath (by omega) fun lx s1 n1 h1 l1 => ?_)
  obtain ⟨a, b, _, _⟩ := h1
  cases he : lx.err with
  | some er => exact .fail
  | none =>
    dsimp only
    split_ifs with h1 h2 h3 h4 h5 h6 h7
    · have hw : lx.weight = 1 := weight_one (by rw [h1]; simp) he
      exact .pure (by omega)
    · have hw : lx.weight = 1 := weight_one (by rw [h2]; simp) he
      refine .bind tParenExpr_runs (by omega) fun x s2 n2 h2 _ => ?_
      refine .bind .lookPath (by omega) fun t s3 n3 h3 l3 => ?_
      obtain ⟨h3, h4, _⟩ := h3
      by_cases h : t = .ch (c! ':')
      · rw [if_pos h, if_pos h]
        refine .bind .lexPath (by omega) fun lx s4 n4 h7 l4 => ?_
        obtain ⟨a', b', _, _⟩ := h7
        exact tSlice_runs.mono (by omega) fun _ s5 n5 h8 _ => by omega
      · rw [if_neg h, if_neg h]; exact .pure (by omega)
    · have hw : lx.weight = 1 := weight_one (by rw [h3]; simp) he
      exact tSlice_runs.mono (by omega) fun _ s5 n5 h8 _ => by omega
    · have hw : lx.weight = 1 := weight_one (by rw [h4]; simp) he
      exact .bind tParenExpr_runs (by omega) fun x s2 n2 h2 _ => .pure (by omega)
    · have hw : lx.weight = 1 := weight_one (by rw [h5]; simp) he
      refine .bind (.val (lx_i lx)) (Nat.zero_le _) fun nm s2 n2 h2 _ => ?_
      obtain ⟨rfl, rfl⟩ := h2
      refine .bind .lookPath (by omega) fun t s3 n3 h3 l3 => ?_
      obtain ⟨h3, h4, l, h5, h6⟩ := h3
      by_cases h : t = .ch (c! ':')
      · rw [if_pos h, if_pos h]
        subst h
        have hw := seen_weight h6
        have hm := mu_peek h5
        refine .bind .lexPath (by omega) fun lx s4 n4 h7 l4 => ?_
        obtain ⟨a', b', _, h7⟩ := h7
        obtain ⟨rfl, rfl⟩ := h7 l h5
        exact tSlice_runs.mono (by omega) fun _ s5 n5 h8 _ => by omega
      · rw [if_neg h, if_neg h]; exact .pure (by omega)
    · have hw : lx.weight = 1 := weight_one (by rw [h6]; simp) he
      refine .bind (.val (lx_s lx)) (Nat.zero_le _) fun nm s2 n2 h2 _ => ?_
      obtain ⟨rfl, rfl⟩ := h2
      exact .pure (by omega)
    · have hw : lx.weight = 1 := weight_one (by rw [h7]; simp) he
      refine .bind (.val (lx_s lx)) (Nat.zero_le _) fun nm s2 n2 h2 _ => ?_
      obtain ⟨rfl, rfl⟩ := h2
      exact .pure (by omega)
    · exact .bind .offset (Nat.zero_le _) fun off s2 n2 h2 _ => .fail

theorem tValList_runs : ∀ (f : Nat) (s : LState), Clocked (tValList env f) (pValList env f) s (20 * mu s + 27)
    fun l s' n => n + 20 * mu s' + 2 * l.length ≤ 20 * mu s + 9
  | 0, _ => by unfold tValList pValList; exact .stuck
  | f + 1, s => by
    unfold tValList pValList
    refine .tick (by omega) (.bind tVal_runs (by omega) fun v s1 n1 h1 l1 => ?_)
    refine .bind .lookPath (by omega) fun t s2 n2 h2 l2 => ?_
    obtain ⟨h2, h0, l, h3, h4⟩ := h2
    by_cases ht : t ≠ .ch (c! ',')
    · rw [if_pos ht, if_pos ht]; exact .pure (by simp only [List.length_singleton]; omega)
    · rw [if_neg ht, if_neg ht]
      have ht : t = .ch (c! ',') := by simpa using ht
      subst ht
      have hw := seen_weight h4
      have hm := mu_peek h3
      refine .bind .lexPath (by omega) fun lx s3 n3 h5 l3 => ?_
      obtain ⟨a, b, _, h5⟩ := h5
      obtain ⟨rfl, rfl⟩ := h5 l h3
      exact .bind (tValList_runs f s3) (by omega) fun l s4 n4 h6 _ => .pure (by simp only [List.length_cons]; omega)

theorem subscript_state (steps : List Step) : ∀ s a s', subscript steps s = .ok (a, s') → s' = s := by
  intro s a s' h
  unfold subscript at h
  cases hx : (if steps.length > 1 then notInUnion steps else none) with
  | some op => rw [hx] at h; cases h
  | none =>
    rw [hx] at h
    cases steps with
    | nil => cases h
    | cons st r =>
      simp only at h
      split_ifs at h
      · cases h; rfl
      · cases h; rfl
      · rcases hu : unionArgs (st :: r) with _ | l
        · rw [hu] at h; cases h
        · rw [hu] at h
          rcases l with _ | ⟨x, _ | ⟨y, l⟩⟩ <;> cases h <;> rfl

theorem tBrackets_runs {s : LState} :
    Clocked (tBrackets env) (pBrackets env) s (20 * mu s + 28) fun _ s' n => n + 20 * mu s' ≤ 20 * mu s + 11 := by
  unfold tBrackets pBrackets
  refine .tick (by omega) (.bind (Clocked.fuel (g := tValList env) (k := pValList env) (n := pathFuel) (tValList_runs (pathFuel s) s)) (by omega) fun l s1 n1 h1 l1 => ?_)
  unfold tSubscript
  refine .bind (c := 2 * l.length + 1) (R := fun _ s' n => s' = s1 ∧ n = 2 * l.length + 1)
    (.tick (Nat.le_refl _) ((Clocked.val (subscript_state l)).mono (Nat.zero_le _) fun _ s' n h _ => ⟨h.1, by omega⟩)) (by omega) fun x s2 n2 h2 l2 => ?_
  obtain ⟨rfl, rfl⟩ := h2
  exact .bind (.expect (by simp) .lexPath) (by omega) fun _ s3 n3 h3 l3 => .pure (by omega)

/-- What is known otherwise about the parser. -/
theorem Clocked.and {x : T α} {y : P α} {s : LState} {c : Nat} {Q : α → LState → Nat → Prop} {R : α → LState → Prop} {E : PErr → Prop}
    (h : Clocked x y s c Q) (h2 : wp y R E s) : Clocked x y s c fun a s' n => Q a s' n ∧ R a s' := by
  refine ⟨h.1, h.2.1, fun a s' e => ⟨h.2.2 a s' e, ?_⟩⟩
  unfold wp at h2
  rw [e] at h2
  exact h2

theorem tSteps_runs {text : Bytes} : ∀ (f : Nat) (acc : Path) (s : LState), Inv env text s →
    Clocked (tSteps env f acc) (pSteps env f acc) s (20 * mu s + 12) fun _ s' n => n + 20 * mu s' ≤ 20 * mu s + 12
  | 0, _, _, _ => by unfold tSteps pSteps; exact .stuck
  | f + 1, acc, s, hs => by
    unfold tSteps pSteps
    refine .tick (by omega) (.bind (Clocked.lexPath.and (lexPathP_ok hs (E := fun _ => True))) (by omega) fun lx s1 n1 h1 l1 => ?_)
    obtain ⟨⟨a, b, _, _⟩, h1⟩ := h1
    cases ht : lx.tok with
    | eof => exact .pure (by omega)
    | error =>
      dsimp only
      cases lx.err with
      | some er => exact .fail
      | none => exact .panic
    | nest =>
      have hw : lx.weight = 1 := weight_one (by rw [ht]; simp) (h1.good.err_none (by rw [ht]; simp))
      dsimp only
      refine .bind (Clocked.lookPath.and (lookPath_ok h1.inv (E := fun _ => True))) (by omega) fun t s2 n2 h2 l2 => ?_
      obtain ⟨⟨h2, h0, l, h3, h4⟩, h5⟩ := h2
      by_cases h : t = .ch (c! '[')
      · rw [if_pos h, if_pos h]
        subst h
        have hw := seen_weight h4
        have hm := mu_peek h3
        refine .bind (Clocked.lexPath.and (lexPathP_ok h5.inv (E := fun _ => True))) (by omega) fun lx s3 n3 h6 l3 => ?_
        obtain ⟨⟨a', b', _, h7⟩, h6⟩ := h6
        obtain ⟨rfl, rfl⟩ := h7 l h3
        refine .bind (tBrackets_runs.and (pBrackets_ok h6.inv)) (by omega) fun sub s4 n4 h8 l4 => ?_
        obtain ⟨h8, h9⟩ := h8
        cases nestOp sub.op with
        | none => exact .panic
        | some op => exact (tSteps_runs f _ s4 h9.1).mono (by omega) fun _ s5 n5 h10 _ => by omega
      · rw [if_neg h, if_neg h]
        refine .bind (tMember_runs.and (pMember_ok h5.inv)) (by omega) fun m s3 n3 h6 l3 => ?_
        obtain ⟨h6, h7⟩ := h6
        cases m with
        | none => exact (tSteps_runs f _ s3 h7.1).mono (by omega) fun _ s5 n5 h10 _ => by omega
        | some v => exact (tSteps_runs f _ s3 h7.1).mono (by omega) fun _ s5 n5 h10 _ => by omega
    | ch c =>
      have hw : lx.weight = 1 := weight_one (by rw [ht]; simp) (h1.good.err_none (by rw [ht]; simp))
      dsimp only
      split_ifs
      · refine .bind (tMember_runs.and (pMember_ok h1.inv)) (by omega) fun m s3 n3 h6 l3 => ?_
        obtain ⟨h6, h7⟩ := h6
        cases m with
        | none => exact (tSteps_runs f _ s3 h7.1).mono (by omega) fun _ s5 n5 h10 _ => by omega
        | some v => exact (tSteps_runs f _ s3 h7.1).mono (by omega) fun _ s5 n5 h10 _ => by omega
      · refine .bind (tBrackets_runs.and (pBrackets_ok h1.inv)) (by omega) fun sub s4 n4 h8 l4 => ?_
        obtain ⟨h8, h9⟩ := h8
        exact (tSteps_runs f _ s4 h9.1).mono (by omega) fun _ s5 n5 h10 _ => by omega
      · exact .fail
    | _ => exact .fail

theorem tPath_runs (text : Bytes) : Clocked (tPath env) (pPath env) ⟨⟨[], text⟩, none⟩ (40 * text.length + 15) fun _ _ _ => True := by
  have hm : mu ⟨⟨[], text⟩, none⟩ = 2 * text.length := by simp [mu]
  unfold tPath pPath
  refine .tick (by omega) (.bind ((Clocked.expect (by simp) .lexPath).and (expect_ok (by simp) (lexPathP_ok (Inv.start env text))))
    (by omega) fun _ s1 n1 h1 l1 => ?_)
  obtain ⟨h1, h2⟩ := h1
  exact (Clocked.fuel (g := fun f => tSteps env f []) (k := fun f => pSteps env f []) (n := pathFuel) (tSteps_runs (pathFuel s1) [] s1 h2.1)).mono (by omega) fun _ _ _ _ _ => trivial

theorem Clocked.run {x : T α} {y : P α} {text : Bytes} {c : Nat} {Q : α → LState → Nat → Prop} (h : Clocked x y ⟨⟨[], text⟩, none⟩ c Q) :
    T.run x text = (match y ⟨⟨[], text⟩, none⟩ with
      | .ok (a, _) => .ok a
      | .err e => .err e
      | .panic m => .panic m
      | .stuck => .stuck, (T.run x text).2) ∧ (T.run x text).2 ≤ c := by
  refine ⟨Prod.ext ?_ rfl, h.2.1⟩
  show (match (x ⟨⟨[], text⟩, none⟩).1 with
      | .ok (a, _) => Res.ok a
      | .err e => .err e
      | .panic m => .panic m
      | .stuck => .stuck) = _
  rw [h.1]

theorem tParsePath_runs (env : Env) (text : Bytes) :
    (tParsePath env text).1 = parsePath env text ∧ (tParsePath env text).2 ≤ 40 * text.length + 15 := by
  obtain ⟨h1, h2⟩ := (tPath_runs (env := env) text).run
  refine ⟨(congrArg Prod.fst h1).trans ?_, h2⟩
  unfold parsePath
  rcases pPath env ⟨⟨[], text⟩, none⟩ with ⟨a, s⟩ | e | m | _ <;> rfl

theorem tScriptExpression_runs (env : Env) (text : Bytes) :
    (tScriptExpression env text).1 = parseScriptExpression env text ∧ (tScriptExpression env text).2 ≤ 40 * text.length + 12 := by
  have hm : mu ⟨⟨[], text⟩, none⟩ = 2 * text.length := by simp [mu]
  obtain ⟨y, hy⟩ : ∃ y : P Expr, y = (do
      let e ← parseScriptExpr env
      let lx ← lexExprP env
      let off ← P.offset
      if lx.tok ≠ .eof then P.fail (.missingOperator off lx.tok) else Pure.pure e) := ⟨_, rfl⟩
  have h : Clocked (do
      let e ← tScriptExpr env
      let lx ← tLexExpr env
      let off ← T.of P.offset
      if lx.tok ≠ .eof then T.fail (.missingOperator off lx.tok) else Pure.pure e) y ⟨⟨[], text⟩, none⟩ (40 * text.length + 12) fun _ _ _ => True := by
    subst hy
    refine .bind tScriptExpr_runs (by omega) fun x s1 n1 h1 l1 => .bind .lex (by omega) fun lx s2 n2 h2 l2 => .bind .offset (Nat.zero_le _) fun off s3 n3 h3 l3 => ?_
    by_cases ht : lx.tok ≠ .eof
    · rw [if_pos ht, if_pos ht]; exact .fail
    · rw [if_neg ht, if_neg ht]; exact .pure trivial
  obtain ⟨h1, h2⟩ := h.run
  refine ⟨(congrArg Prod.fst h1).trans ?_, h2⟩
  unfold parseScriptExpression
  dsimp only
  rw [← hy]
  rcases y ⟨⟨[], text⟩, none⟩ with ⟨a, s⟩ | e | m | _ <;> rfl

end JP
