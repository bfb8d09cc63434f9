import Verif.Proof.Local
import Verif.Proof.ParseWF
/-! The parser on two texts with a common beginning, for C69: see Proof/Local. -/
set_option linter.unusedSimpArgs false
namespace JP
variable {x y : Bytes} {N : Nat} {α β : Type}

/-- The number of bytes read. -/
abbrev LState.pos (s : LState) : Nat := s.rd.pos

/-- The states of two parsers. -/
def RS (x y : Bytes) (N : Nat) (s s' : LState) : Prop := RR x y N s.rd s'.rd ∧ (s.pos < N → s'.peek = s.peek)

/-- The lexeme in hand reports its errors where the reader is. -/
def LState.Good (s : LState) : Prop := ∀ lx, s.peek = some lx → LexRep lx s.pos

/-- The offsets in an error are not before `n` (of an invalid regular expression the parser reports the
beginning). -/
def PRep (e : PErr) (n : Nat) : Prop := (∃ p o, e = .badRegexp p o) ∨ ∀ k ∈ e.offsets, n ≤ k + 1

theorem PRep.nil {e : PErr} {n : Nat} (h : e.offsets = []) : PRep e n := .inr (by rw [h]; simp)

theorem PRep.lex {lx : Lexeme} {e : LexErr} {n : Nat} (hl : LexRep lx n) (he : lx.err = some e) : PRep (.lex e) n := .inr (hl e he)

/-- Two parsers do the same as long as the first does not come to the end of the common part (or the second
runs out of fuel): their results. -/
def LocR (x y : Bytes) (N n : Nat) (Q : α → LState → Prop) (r r' : Res PErr (α × LState)) : Prop :=
  match r with
  | .ok (a, s1) => n ≤ s1.pos ∧ s1.Good ∧ Q a s1 ∧ ∃ s1', RS x y N s1 s1' ∧ (s1.pos < N → r' = .ok (a, s1') ∨ r' = .stuck)
  | .err e => ∃ m, n ≤ m ∧ PRep e m ∧ (m < N → r' = .err e ∨ r' = .stuck)
  | _ => True

/-- See `LocR`. -/
def Loc (x y : Bytes) (N : Nat) (m m' : P α) (Q : α → LState → Prop) (s s' : LState) : Prop := LocR x y N s.pos Q (m s) (m' s')

theorem LocR.cases {n : Nat} {Q : α → LState → Prop} {r r' : Res PErr (α × LState)} (h : LocR x y N n Q r r') :
    (∃ a s1, r = .ok (a, s1) ∧ n ≤ s1.pos ∧ s1.Good ∧ Q a s1 ∧ ∃ s1', RS x y N s1 s1' ∧ (s1.pos < N → r' = .ok (a, s1') ∨ r' = .stuck)) ∨
    (∃ e, r = .err e ∧ ∃ m, n ≤ m ∧ PRep e m ∧ (m < N → r' = .err e ∨ r' = .stuck)) ∨ (∃ p, r = .panic p) ∨ r = .stuck := by
  rcases r with ⟨a, s1⟩ | e | p | _
  · exact .inl ⟨_, _, rfl, h⟩
  · exact .inr (.inl ⟨_, rfl, h⟩)
  · exact .inr (.inr (.inl ⟨p, rfl⟩))
  · exact .inr (.inr (.inr rfl))

/-- Nothing is claimed of the result. -/
def anyQ : α → LState → Prop := fun _ _ => True

theorem Loc.bind {m m' : P α} {Q : α → LState → Prop} {f f' : α → P β} {Q' : β → LState → Prop} {s s' : LState}
    (h : Loc x y N m m' Q s s')
    (hf : ∀ a s1 s1', RS x y N s1 s1' → s1.Good → Q a s1 → Loc x y N (f a) (f' a) Q' s1 s1') :
    Loc x y N (m >>= f) (m' >>= f') Q' s s' := by
  unfold Loc at h ⊢
  show LocR x y N s.pos Q' (P.bind m f s) (P.bind m' f' s')
  unfold P.bind
  rcases h.cases with ⟨a, s1, hm, h1, h2, h3, s1', h4, h5⟩ | ⟨e, hm, n, h1, h2, h3⟩ | ⟨p, hm⟩ | hm <;> rw [hm] <;> simp only
  · have h6 := hf a s1 s1' h4 h2 h3
    unfold Loc at h6
    rcases h6.cases with ⟨b, s2, hr, g1, g2, g3, s2', g4, g5⟩ | ⟨e, hr, n, g1, g2, g3⟩ | ⟨p, hr⟩ | hr <;> rw [hr]
    · refine ⟨Nat.le_trans h1 g1, g2, g3, s2', g4, fun hn => ?_⟩
      rcases h5 (Nat.lt_of_le_of_lt g1 hn) with h5 | h5 <;> rw [h5]
      · exact g5 hn
      · exact .inr rfl
    · refine ⟨n, Nat.le_trans h1 g1, g2, fun hn => ?_⟩
      rcases h5 (Nat.lt_of_le_of_lt g1 hn) with h5 | h5 <;> rw [h5]
      · exact g3 hn
      · exact .inr rfl
    · trivial
    · trivial
  · refine ⟨n, h1, h2, fun hn => ?_⟩
    rcases h3 hn with h3 | h3 <;> rw [h3]
    · exact .inl rfl
    · exact .inr rfl
  · trivial
  · trivial

theorem Loc.pure {a : α} {Q : α → LState → Prop} {s s' : LState} (h : RS x y N s s') (hg : s.Good) (hq : Q a s) :
    Loc x y N (Pure.pure a) (Pure.pure a) Q s s' := ⟨Nat.le_refl _, hg, hq, s', h, fun _ => .inl rfl⟩

theorem Loc.fail {e : PErr} {Q : α → LState → Prop} {s s' : LState} (he : PRep e s.pos) :
    Loc x y N (P.fail e) (P.fail e) Q s s' := ⟨s.pos, Nat.le_refl _, he, fun _ => .inl rfl⟩

theorem Loc.panic {p : String} {m' : P α} {Q : α → LState → Prop} {s s' : LState} : Loc x y N (P.panic p) m' Q s s' := trivial

/-- Whatever the first parser does, the second may run out of fuel. -/
theorem Loc.stuck {m m' : P α} {Q : α → LState → Prop} {s s' : LState} (h : Loc x y N m m' Q s s') : Loc x y N m P.stuck Q s s' := by
  unfold Loc at h ⊢
  rcases h.cases with ⟨a, s1, hm, h1, h2, h3, s1', h4, h5⟩ | ⟨e, hm, n, h1, h2, h3⟩ | ⟨p, hm⟩ | hm <;> rw [hm]
  · exact ⟨h1, h2, h3, s1', h4, fun _ => .inr rfl⟩
  · exact ⟨n, h1, h2, fun _ => .inr rfl⟩
  · trivial
  · trivial

theorem Loc.ite {p : Prop} [Decidable p] {a a' b b' : P α} {Q : α → LState → Prop} {s s' : LState}
    (h1 : p → Loc x y N a a' Q s s') (h2 : ¬ p → Loc x y N b b' Q s s') :
    Loc x y N (if p then a else b) (if p then a' else b') Q s s' := by
  split
  · next h => exact h1 h
  · next h => exact h2 h

/-! ### The atoms -/

/-- What is known of a lexeme just taken. -/
def lexQ (lx : Lexeme) (s : LState) : Prop := LexRep lx s.pos ∧ s.peek = none

theorem loc_lexWith {f : Rd → Option (Lexeme × Rd)} (hf : ∀ {r r'}, RR x y N r r' → LL x y N r.pos (f r) (f r')) {s s' : LState}
    (h : RS x y N s s') (hg : s.Good) : Loc x y N (lexWith f) (lexWith f) lexQ s s' := by
  unfold Loc LocR lexWith
  obtain ⟨r, pk⟩ := s
  cases pk with
  | some lx =>
    refine ⟨Nat.le_refl _, (fun _ h => by cases h), ⟨hg lx rfl, rfl⟩, ⟨s'.rd, none⟩, ⟨h.1, fun _ => rfl⟩, fun hn => ?_⟩
    rw [h.2 hn]
    exact .inl rfl
  | none =>
    simp only
    obtain ⟨h1, h2⟩ := hf h.1
    rcases hr : f r with _ | ⟨lx, r1⟩
    · trivial
    · rw [hr] at h1 h2
      obtain ⟨g1, r1', g2, g3⟩ := h1
      refine ⟨g1, (fun _ h => by cases h), ⟨h2 lx r1 rfl, rfl⟩, ⟨r1', none⟩, ⟨g2, fun _ => rfl⟩, fun hn => ?_⟩
      obtain ⟨r0', pk'⟩ := s'
      have hp : pk' = none := h.2 (Nat.lt_of_le_of_lt g1 hn)
      subst hp
      rcases g3 hn with g3 | g3
      · exact .inl (by simp only [g3])
      · exact .inr (by simp only [g3])

theorem loc_unget {lx : Lexeme} {s s' : LState} (h : RS x y N s s') (hl : LexRep lx s.pos) :
    Loc x y N (ungetP lx) (ungetP lx) anyQ s s' := by
  unfold Loc LocR ungetP
  obtain ⟨r, pk⟩ := s
  cases pk with
  | some _ => trivial
  | none =>
    refine ⟨Nat.le_refl _, (fun _ h => by cases h; exact hl), trivial, { s' with peek := some lx }, ⟨h.1, fun _ => rfl⟩, fun hn => ?_⟩
    rw [h.2 hn]
    exact .inl rfl

theorem loc_offset {s s' : LState} (h : RS x y N s s') (hg : s.Good) :
    Loc x y N P.offset P.offset (fun n s1 => s1 = s ∧ s1.pos ≤ n + 1) s s' :=
  ⟨Nat.le_refl _, hg, ⟨rfl, s.rd.pos_le_offset⟩, s', h, fun hn => .inl (by unfold P.offset; rw [h.1.offset hn])⟩

theorem loc_lexExprP (hx : x ≠ []) (env : Env) {s s' : LState} (h : RS x y N s s') (hg : s.Good) :
    Loc x y N (lexExprP env) (lexExprP env) lexQ s s' := loc_lexWith (fun h => ll_lexExpr hx env h) h hg

theorem loc_lexPathP (hx : x ≠ []) (env : Env) {s s' : LState} (h : RS x y N s s') (hg : s.Good) :
    Loc x y N (lexPathP env) (lexPathP env) lexQ s s' := loc_lexWith (fun h => ll_lexPath hx env h) h hg

theorem loc_look {lex : P Lexeme} {s s' : LState} (hl : Loc x y N lex lex lexQ s s') : Loc x y N (lookWith lex) (lookWith lex) anyQ s s' := by
  unfold lookWith
  exact hl.bind fun lx s1 s1' h1 g1 q1 => (loc_unget h1 q1.1).bind fun _ s2 s2' h2 g2 _ => .pure h2 g2 trivial

theorem loc_lookExpr (hx : x ≠ []) (env : Env) {s s' : LState} (h : RS x y N s s') (hg : s.Good) :
    Loc x y N (lookExpr env) (lookExpr env) anyQ s s' := loc_look (loc_lexExprP hx env h hg)

theorem loc_lookPath (hx : x ≠ []) (env : Env) {s s' : LState} (h : RS x y N s s') (hg : s.Good) :
    Loc x y N (lookPath env) (lookPath env) anyQ s s' := loc_look (loc_lexPathP hx env h hg)

theorem loc_lexOp (hx : x ≠ []) (env : Env) {s s' : LState} (h : RS x y N s s') (hg : s.Good) :
    Loc x y N (lexOp env) (lexOp env) lexQ s s' := by
  unfold lexOp
  refine (loc_lexExprP hx env h hg).bind fun lx s1 s1' h1 g1 q1 => .pure h1 g1 ⟨?_, q1.2⟩
  have : ∀ (lx' : Lexeme), lx'.err = lx.err → LexRep lx' s1.pos := by
    intro lx' he e
    rw [he]
    exact q1.1 e
  apply this
  repeat' split
  all_goals rfl

theorem loc_lookOp (hx : x ≠ []) (env : Env) {s s' : LState} (h : RS x y N s s') (hg : s.Good) :
    Loc x y N (lookOp env) (lookOp env) anyQ s s' := by
  unfold lookOp
  exact (loc_lexOp hx env h hg).bind fun lx s1 s1' h1 g1 q1 => (loc_unget h1 q1.1).bind fun _ s2 s2' h2 g2 _ => .pure h2 g2 trivial

theorem loc_expect {lex : P Lexeme} {t : Tok} {s s' : LState} (hl : Loc x y N lex lex lexQ s s') :
    Loc x y N (expect lex t) (expect lex t) anyQ s s' := by
  unfold expect
  refine hl.bind fun lx s1 s1' h1 g1 q1 => (loc_offset h1 g1).bind fun off s2 s2' h2 g2 q2 => ?_
  obtain ⟨rfl, q2⟩ := q2
  obtain ⟨tok, val, err⟩ := lx
  cases err with
  | some e =>
    refine .fail (.inr fun k hk => ?_)
    rcases List.mem_cons.1 hk with rfl | hk
    · exact q2
    · exact q1.1 e rfl k hk
  | none =>
    refine .ite (fun _ => .fail (.inr fun k hk => ?_)) (fun _ => .pure h2 g2 trivial)
    simp only [PErr.offsets, List.mem_singleton] at hk
    subst hk
    exact q2

theorem loc_s (lx : Lexeme) {s s' : LState} (h : RS x y N s s') (hg : s.Good) : Loc x y N lx.s lx.s anyQ s s' := by
  unfold Lexeme.s
  split
  · exact .pure h hg trivial
  · trivial

theorem loc_i (lx : Lexeme) {s s' : LState} (h : RS x y N s s') (hg : s.Good) : Loc x y N lx.i lx.i anyQ s s' := by
  unfold Lexeme.i
  split
  · exact .pure h hg trivial
  · trivial

theorem loc_f (lx : Lexeme) {s s' : LState} (h : RS x y N s s') (hg : s.Good) : Loc x y N lx.f lx.f anyQ s s' := by
  unfold Lexeme.f
  split
  · exact .pure h hg trivial
  · trivial

/-- The action of `pPrimary1` that scans a regular expression. -/
def lexReP : P Lexeme := fun s => let (lx, r) := lexRegexp (c! '/') s.rd; .ok (lx, { s with rd := r })

theorem loc_lexReP {s s' : LState} (h : RS x y N s s') (hp : s.peek = none) : Loc x y N lexReP lexReP lexQ s s' := by
  have h1 := rl_lexRegexp (c! '/') h.1
  have h2 : ∀ e, (lexRegexp (c! '/') s.rd).1.err = some e → e.offsets = [] := (lexRegexp_total _ _ _ _).2.2.2
  obtain ⟨r, pk⟩ := s
  simp only at hp
  subst hp
  obtain ⟨g1, r1', g2, g3⟩ := h1
  refine ⟨g1, (fun _ h => by cases h), ⟨fun e he => by rw [h2 e he]; simp, rfl⟩, ⟨r1', none⟩, ⟨g2, fun _ => rfl⟩, fun hn => .inl ?_⟩
  obtain ⟨r0', pk'⟩ := s'
  have hp : pk' = none := h.2 (Nat.lt_of_le_of_lt g1 hn)
  subst hp
  unfold lexReP
  simp only [g3 hn]
  rfl

/-! ### Expressions -/

mutual
theorem loc_pExpr (hx : x ≠ []) (env : Env) : ∀ (f g : Nat) (pri : Int) {s s' : LState}, RS x y N s s' → s.Good →
    Loc x y N (pExpr env f pri) (pExpr env g pri) anyQ s s'
  | 0, g, pri, s, s', h, hg => by unfold pExpr; trivial
  | f + 1, g, pri, s, s', h, hg => by
    have key : ∀ g, Loc x y N (pExpr env (f + 1) pri) (pExpr env (g + 1) pri) anyQ s s' := by
      intro g
      rw [pExpr, pExpr]
      exact (loc_pPrimary hx env f g h hg).bind fun e s1 s1' h1 g1 _ => loc_pExprLoop hx env f g pri e h1 g1
    cases g with
    | zero => have := (key 0).stuck; rwa [pExpr.eq_def env 0]
    | succ g => exact key g

theorem loc_pExprLoop (hx : x ≠ []) (env : Env) : ∀ (f g : Nat) (pri : Int) (e : Expr) {s s' : LState}, RS x y N s s' → s.Good →
    Loc x y N (pExprLoop env f pri e) (pExprLoop env g pri e) anyQ s s'
  | 0, g, pri, e, s, s', h, hg => by unfold pExprLoop; trivial
  | f + 1, g, pri, e, s, s', h, hg => by
    have key : ∀ g, Loc x y N (pExprLoop env (f + 1) pri e) (pExprLoop env (g + 1) pri e) anyQ s s' := by
      intro g
      rw [pExprLoop, pExprLoop]
      refine (loc_lookOp hx env h hg).bind fun t s1 s1' h1 g1 _ => .ite (fun _ => ?_) (fun _ => .pure h1 g1 trivial)
      refine (loc_lexOp hx env h1 g1).bind fun lx s2 s2' h2 g2 q2 => ?_
      obtain ⟨tok, val, err⟩ := lx
      cases err with
      | some er => exact .fail (.lex q2.1 rfl)
      | none =>
        exact (loc_pExpr hx env f g _ h2 g2).bind fun r s3 s3' h3 g3 _ => loc_pExprLoop hx env f g pri _ h3 g3
    cases g with
    | zero => have := (key 0).stuck; rwa [pExprLoop.eq_def env 0]
    | succ g => exact key g

theorem loc_pPrimary (hx : x ≠ []) (env : Env) : ∀ (f g : Nat) {s s' : LState}, RS x y N s s' → s.Good →
    Loc x y N (pPrimary env f) (pPrimary env g) anyQ s s'
  | 0, g, s, s', h, hg => by unfold pPrimary; trivial
  | f + 1, g, s, s', h, hg => by
    have key : ∀ g, Loc x y N (pPrimary env (f + 1)) (pPrimary env (g + 1)) anyQ s s' := by
      intro g
      rw [pPrimary, pPrimary]
      exact (loc_pPrimary1 hx env f g h hg).bind fun e s1 s1' h1 g1 _ => loc_pPrimaryLoop hx env f g e h1 g1
    cases g with
    | zero => have := (key 0).stuck; rwa [pPrimary.eq_def env 0]
    | succ g => exact key g

theorem loc_pPrimaryLoop (hx : x ≠ []) (env : Env) : ∀ (f g : Nat) (e : Expr) {s s' : LState}, RS x y N s s' → s.Good →
    Loc x y N (pPrimaryLoop env f e) (pPrimaryLoop env g e) anyQ s s'
  | 0, g, e, s, s', h, hg => by unfold pPrimaryLoop; trivial
  | f + 1, g, e, s, s', h, hg => by
    have key : ∀ g, Loc x y N (pPrimaryLoop env (f + 1) e) (pPrimaryLoop env (g + 1) e) anyQ s s' := by
      intro g
      rw [pPrimaryLoop, pPrimaryLoop]
      refine (loc_lookExpr hx env h hg).bind fun t s1 s1' h1 g1 _ => ?_
      refine .ite (fun _ => .ite (fun _ => .fail (.nil rfl)) fun _ => ?_) fun _ => .ite (fun _ => ?_) fun _ => .ite (fun _ => ?_) fun _ => ?_
      · exact (loc_lexExprP hx env h1 g1).bind fun _ s2 s2' h2 g2 _ =>
          (loc_pApplication hx env f g _ _ _ h2 g2).bind fun e s3 s3' h3 g3 _ => loc_pPrimaryLoop hx env f g e h3 g3
      · exact (loc_lexExprP hx env h1 g1).bind fun _ s2 s2' h2 g2 _ => (loc_pExpr hx env f g _ h2 g2).bind fun i s3 s3' h3 g3 _ =>
          (loc_expect (loc_lexExprP hx env h3 g3)).bind fun _ s4 s4' h4 g4 _ => loc_pPrimaryLoop hx env f g _ h4 g4
      · refine (loc_lexExprP hx env h1 g1).bind fun _ s2 s2' h2 g2 _ => (loc_lexExprP hx env h2 g2).bind fun lx s3 s3' h3 g3 q3 => ?_
        obtain ⟨tok, val, err⟩ := lx
        cases err with
        | some er => exact .fail (.lex q3.1 rfl)
        | none =>
          exact .ite (fun _ => .fail (.nil rfl)) fun _ => (loc_s _ h3 g3).bind fun n s4 s4' h4 g4 _ => loc_pPrimaryLoop hx env f g _ h4 g4
      · exact .pure h1 g1 trivial
    cases g with
    | zero => have := (key 0).stuck; rwa [pPrimaryLoop.eq_def env 0]
    | succ g => exact key g

theorem loc_pApplication (hx : x ≠ []) (env : Env) : ∀ (f g : Nat) (op : Op) (stop : Tok) (args : List Expr) {s s' : LState},
    RS x y N s s' → s.Good → Loc x y N (pApplication env f op stop args) (pApplication env g op stop args) anyQ s s'
  | 0, g, op, stop, args, s, s', h, hg => by unfold pApplication; trivial
  | f + 1, g, op, stop, args, s, s', h, hg => by
    have key : ∀ g, Loc x y N (pApplication env (f + 1) op stop args) (pApplication env (g + 1) op stop args) anyQ s s' := by
      intro g
      rw [pApplication, pApplication]
      refine (loc_lookExpr hx env h hg).bind fun t s1 s1' h1 g1 _ => ?_
      exact .ite (fun _ => (loc_pExprList hx env f g args h1 g1).bind fun a s2 s2' h2 g2 _ =>
          (loc_expect (loc_lexExprP hx env h2 g2)).bind fun _ s3 s3' h3 g3 _ => .pure h3 g3 trivial)
        fun _ => (Loc.pure (Q := anyQ) h1 g1 trivial).bind fun a s2 s2' h2 g2 _ =>
          (loc_expect (loc_lexExprP hx env h2 g2)).bind fun _ s3 s3' h3 g3 _ => .pure h3 g3 trivial
    cases g with
    | zero => have := (key 0).stuck; rwa [pApplication.eq_def env 0]
    | succ g => exact key g

theorem loc_pExprList (hx : x ≠ []) (env : Env) : ∀ (f g : Nat) (l : List Expr) {s s' : LState}, RS x y N s s' → s.Good →
    Loc x y N (pExprList env f l) (pExprList env g l) anyQ s s'
  | 0, g, l, s, s', h, hg => by unfold pExprList; trivial
  | f + 1, g, l, s, s', h, hg => by
    have key : ∀ g, Loc x y N (pExprList env (f + 1) l) (pExprList env (g + 1) l) anyQ s s' := by
      intro g
      rw [pExprList, pExprList]
      refine (loc_pExpr hx env f g 0 h hg).bind fun e s1 s1' h1 g1 _ => (loc_lookExpr hx env h1 g1).bind fun t s2 s2' h2 g2 _ => ?_
      exact .ite (fun _ => .pure h2 g2 trivial) fun _ => (loc_lexExprP hx env h2 g2).bind fun _ s3 s3' h3 g3 _ =>
        loc_pExprList hx env f g _ h3 g3
    cases g with
    | zero => have := (key 0).stuck; rwa [pExprList.eq_def env 0]
    | succ g => exact key g

theorem loc_pPrimary1 (hx : x ≠ []) (env : Env) : ∀ (f g : Nat) {s s' : LState}, RS x y N s s' → s.Good →
    Loc x y N (pPrimary1 env f) (pPrimary1 env g) anyQ s s'
  | 0, g, s, s', h, hg => by unfold pPrimary1; trivial
  | f + 1, g, s, s', h, hg => by
    have key : ∀ g, Loc x y N (pPrimary1 env (f + 1)) (pPrimary1 env (g + 1)) anyQ s s' := by
      intro g
      rw [pPrimary1, pPrimary1]
      refine (loc_lexExprP hx env h hg).bind fun lx s1 s1' h1 g1 q1 => ?_
      obtain ⟨tok, val, err⟩ := lx
      cases err with
      | some er => exact .fail (.lex q1.1 rfl)
      | none =>
        cases tok with
        | id =>
          exact (loc_s _ h1 g1).bind fun id s2 s2' h2 g2 _ => .ite (fun _ => .pure h2 g2 trivial) fun _ =>
            .ite (fun _ => .pure h2 g2 trivial) fun _ => .ite (fun _ => .pure h2 g2 trivial) fun _ => .pure h2 g2 trivial
        | int => exact (loc_i _ h1 g1).bind fun n s2 s2' h2 g2 _ => .pure h2 g2 trivial
        | real => exact (loc_f _ h1 g1).bind fun n s2 s2' h2 g2 _ => .pure h2 g2 trivial
        | string => exact (loc_s _ h1 g1).bind fun n s2 s2' h2 g2 _ => .pure h2 g2 trivial
        | ch c =>
          refine .ite (fun _ => (loc_pPrimary hx env f g h1 g1).bind fun a s2 s2' h2 g2 _ => .pure h2 g2 trivial) fun _ => ?_
          refine .ite (fun _ => (loc_pPrimary hx env f g h1 g1).bind fun a s2 s2' h2 g2 _ => .pure h2 g2 trivial) fun _ => ?_
          refine .ite (fun _ => ?_) fun _ => ?_
          · refine (loc_offset h1 g1).bind fun off s2 s2' h2 g2 q2 => ?_
            obtain ⟨rfl, -⟩ := q2
            refine (loc_lexReP h2 q1.2).bind fun lx s3 s3' h3 g3 q3 => ?_
            obtain ⟨tok, val, err⟩ := lx
            cases err with
            | some er => exact .fail (.lex q3.1 rfl)
            | none =>
              exact (loc_s _ h3 g3).bind fun p s4 s4' h4 g4 _ =>
                .ite (fun _ => .pure h4 g4 trivial) fun _ => .fail (.inl ⟨_, _, rfl⟩)
          refine .ite (fun _ => .pure h1 g1 trivial) fun _ => .ite (fun _ => .pure h1 g1 trivial) fun _ => ?_
          refine .ite (fun _ => ?_) fun _ => .ite (fun _ => loc_pApplication hx env f g _ _ _ h1 g1) fun _ => .fail (.nil rfl)
          exact (loc_pExpr hx env f g 0 h1 g1).bind fun e s2 s2' h2 g2 _ =>
            (loc_expect (loc_lexExprP hx env h2 g2)).bind fun _ s3 s3' h3 g3 _ => .pure h3 g3 trivial
        | _ => exact .fail (.nil rfl)
    cases g with
    | zero => have := (key 0).stuck; rwa [pPrimary1.eq_def env 0]
    | succ g => exact key g
end

theorem loc_script (hx : x ≠ []) (env : Env) {s s' : LState} (h : RS x y N s s') (hg : s.Good) :
    Loc x y N (parseScriptExpr env) (parseScriptExpr env) anyQ s s' := by
  have := loc_pExpr hx env (exprFuel s) (exprFuel s') 0 h hg
  unfold Loc at this ⊢
  unfold parseScriptExpr
  exact this

/-! ### Paths -/

theorem loc_pParenExpr (hx : x ≠ []) (env : Env) {s s' : LState} (h : RS x y N s s') (hg : s.Good) :
    Loc x y N (pParenExpr env) (pParenExpr env) anyQ s s' :=
  (loc_script hx env h hg).bind fun e s1 s1' h1 g1 _ =>
    (loc_expect (loc_lexPathP hx env h1 g1)).bind fun _ s2 s2' h2 g2 _ => .pure h2 g2 trivial

/-- The end of several parsers: the place of the error is taken, then it is reported. -/
theorem loc_at {Q : α → LState → Prop} {e : Nat → PErr} (he : ∀ k, (e k).offsets = [k]) {s s' : LState} (h : RS x y N s s') (hg : s.Good) :
    Loc x y N (P.offset >>= fun o => P.fail (e o) : P α) (P.offset >>= fun o => P.fail (e o)) Q s s' := by
  refine (loc_offset h hg).bind fun off s2 s2' h2 g2 q2 => .fail (.inr ?_)
  rw [he]
  intro k hk
  simp only [List.mem_singleton] at hk
  subst hk
  exact q2.2

theorem loc_pMember (hx : x ≠ []) (env : Env) {s s' : LState} (h : RS x y N s s') (hg : s.Good) :
    Loc x y N (pMember env) (pMember env) anyQ s s' := by
  unfold pMember
  refine (loc_lexPathP hx env h hg).bind fun lx s1 s1' h1 g1 q1 => ?_
  obtain ⟨tok, val, err⟩ := lx
  cases err with
  | some er => exact .fail (.lex q1.1 rfl)
  | none =>
    refine .ite (fun _ => .pure h1 g1 trivial) fun _ => .ite (fun _ => ?_) fun _ => .ite (fun _ => ?_) fun _ => .ite (fun _ => ?_) fun _ => ?_
    · exact (loc_s _ h1 g1).bind fun n s2 s2' h2 g2 _ => .pure h2 g2 trivial
    · exact (loc_i _ h1 g1).bind fun n s2 s2' h2 g2 _ => .pure h2 g2 trivial
    · exact (loc_pParenExpr hx env h1 g1).bind fun n s2 s2' h2 g2 _ => .pure h2 g2 trivial
    · exact loc_at (fun _ => rfl) h1 g1

theorem loc_pSliceVal (hx : x ≠ []) (env : Env) {s s' : LState} (h : RS x y N s s') (hg : s.Good) :
    Loc x y N (pSliceVal env) (pSliceVal env) anyQ s s' := by
  unfold pSliceVal
  refine (loc_lexPathP hx env h hg).bind fun lx s1 s1' h1 g1 q1 => ?_
  refine .ite (fun _ => ?_) fun _ => .ite (fun _ => ?_) fun _ => ?_
  · exact (loc_pParenExpr hx env h1 g1).bind fun n s2 s2' h2 g2 _ => .pure h2 g2 trivial
  · exact (loc_i _ h1 g1).bind fun n s2 s2' h2 g2 _ => .pure h2 g2 trivial
  · exact loc_at (fun _ => rfl) h1 g1

theorem loc_pSlice (hx : x ≠ []) (env : Env) (start : Option Bound) {s s' : LState} (h : RS x y N s s') (hg : s.Good) :
    Loc x y N (pSlice env start) (pSlice env start) anyQ s s' := by
  unfold pSlice
  refine (loc_lookPath hx env h hg).bind fun t s1 s1' h1 g1 _ => ?_
  refine .ite (fun _ => .pure h1 g1 trivial) fun _ => ?_
  extract_lets jp
  have rest : ∀ (stop : Option Bound) s2 s2', RS x y N s2 s2' → s2.Good → Loc x y N (jp stop) (jp stop) anyQ s2 s2' := ?_
  · refine .ite (fun _ => ?_) fun _ => ?_
    · exact (loc_pSliceVal hx env h1 g1).bind fun e s2 s2' h2 g2 _ => (Loc.pure (Q := anyQ) h2 g2 trivial).bind fun a s3 s3' h3 g3 _ =>
        rest _ _ _ h3 g3
    · exact (Loc.pure (Q := anyQ) h1 g1 trivial).bind fun a s3 s3' h3 g3 _ => rest _ _ _ h3 g3
  intro stop s2 s2' h2 g2
  refine (loc_lookPath hx env h2 g2).bind fun t s3 s3' h3 g3 _ => ?_
  refine .ite (fun _ => .pure h3 g3 trivial) fun _ => .ite (fun _ => ?_) fun _ => ?_
  · refine (loc_lexPathP hx env h3 g3).bind fun _ s4 s4' h4 g4 _ => (loc_lookPath hx env h4 g4).bind fun t s5 s5' h5 g5 _ => ?_
    exact .ite (fun _ => .pure h5 g5 trivial) fun _ => (loc_pSliceVal hx env h5 g5).bind fun e s6 s6' h6 g6 _ => .pure h6 g6 trivial
  · exact (loc_lookPath hx env h3 g3).bind fun t s4 s4' h4 g4 _ => loc_at (fun _ => rfl) h4 g4

theorem loc_pVal (hx : x ≠ []) (env : Env) {s s' : LState} (h : RS x y N s s') (hg : s.Good) :
    Loc x y N (pVal env) (pVal env) anyQ s s' := by
  unfold pVal
  refine (loc_lexPathP hx env h hg).bind fun lx s1 s1' h1 g1 q1 => ?_
  obtain ⟨tok, val, err⟩ := lx
  cases err with
  | some er => exact .fail (.lex q1.1 rfl)
  | none =>
    refine .ite (fun _ => .pure h1 g1 trivial) fun _ => .ite (fun _ => ?_) fun _ => .ite (fun _ => loc_pSlice hx env _ h1 g1) fun _ =>
      .ite (fun _ => ?_) fun _ => .ite (fun _ => ?_) fun _ => .ite (fun _ => ?_) fun _ => .ite (fun _ => ?_) fun _ => ?_
    · refine (loc_pParenExpr hx env h1 g1).bind fun e s2 s2' h2 g2 _ => (loc_lookPath hx env h2 g2).bind fun t s3 s3' h3 g3 _ => ?_
      exact .ite (fun _ => (loc_lexPathP hx env h3 g3).bind fun _ s4 s4' h4 g4 _ => loc_pSlice hx env _ h4 g4) fun _ => .pure h3 g3 trivial
    · exact (loc_pParenExpr hx env h1 g1).bind fun n s2 s2' h2 g2 _ => .pure h2 g2 trivial
    · refine (loc_i _ h1 g1).bind fun e s2 s2' h2 g2 _ => (loc_lookPath hx env h2 g2).bind fun t s3 s3' h3 g3 _ => ?_
      exact .ite (fun _ => (loc_lexPathP hx env h3 g3).bind fun _ s4 s4' h4 g4 _ => loc_pSlice hx env _ h4 g4) fun _ => .pure h3 g3 trivial
    · exact (loc_s _ h1 g1).bind fun n s2 s2' h2 g2 _ => .pure h2 g2 trivial
    · exact (loc_s _ h1 g1).bind fun n s2 s2' h2 g2 _ => .pure h2 g2 trivial
    · exact loc_at (fun _ => rfl) h1 g1

theorem loc_pValList (hx : x ≠ []) (env : Env) : ∀ (f g : Nat) {s s' : LState}, RS x y N s s' → s.Good →
    Loc x y N (pValList env f) (pValList env g) anyQ s s'
  | 0, g, s, s', h, hg => by unfold pValList; trivial
  | f + 1, g, s, s', h, hg => by
    have key : ∀ g, Loc x y N (pValList env (f + 1)) (pValList env (g + 1)) anyQ s s' := by
      intro g
      rw [pValList, pValList]
      refine (loc_pVal hx env h hg).bind fun v s1 s1' h1 g1 _ => (loc_lookPath hx env h1 g1).bind fun t s2 s2' h2 g2 _ => ?_
      exact .ite (fun _ => .pure h2 g2 trivial) fun _ => (loc_lexPathP hx env h2 g2).bind fun _ s3 s3' h3 g3 _ =>
        (loc_pValList hx env f g h3 g3).bind fun vs s4 s4' h4 g4 _ => .pure h4 g4 trivial
    cases g with
    | zero => have := (key 0).stuck; rwa [pValList.eq_def env 0]
    | succ g => exact key g

theorem loc_subscript (steps : List Step) {s s' : LState} (h : RS x y N s s') (hg : s.Good) :
    Loc x y N (subscript steps) (subscript steps) anyQ s s' := by
  unfold subscript
  generalize (if steps.length > 1 then notInUnion steps else none) = o
  cases o with
  | some op => exact .fail (.nil rfl)
  | none =>
    cases steps with
    | nil => trivial
    | cons st r =>
      refine .ite (fun _ => .pure h hg trivial) fun _ => .ite (fun _ => .pure h hg trivial) fun _ => ?_
      generalize unionArgs (st :: r) = o
      rcases o with _ | ⟨_ | ⟨a, _ | ⟨b, r⟩⟩⟩
      · trivial
      all_goals exact .pure h hg trivial

theorem loc_pBrackets (hx : x ≠ []) (env : Env) {s s' : LState} (h : RS x y N s s') (hg : s.Good) :
    Loc x y N (pBrackets env) (pBrackets env) anyQ s s' := by
  unfold pBrackets
  refine Loc.bind (Q := anyQ) ?_ fun steps s1 s1' h1 g1 _ => ?_
  · have := loc_pValList hx env (pathFuel s) (pathFuel s') h hg
    unfold Loc at this ⊢
    exact this
  exact (loc_subscript steps h1 g1).bind fun st s2 s2' h2 g2 _ => (loc_expect (loc_lexPathP hx env h2 g2)).bind fun _ s3 s3' h3 g3 _ =>
    .pure h3 g3 trivial

theorem loc_pSteps (hx : x ≠ []) (env : Env) : ∀ (f g : Nat) (acc : Path) {s s' : LState}, RS x y N s s' → s.Good →
    Loc x y N (pSteps env f acc) (pSteps env g acc) anyQ s s'
  | 0, g, acc, s, s', h, hg => by unfold pSteps; trivial
  | f + 1, g, acc, s, s', h, hg => by
    have key : ∀ g, Loc x y N (pSteps env (f + 1) acc) (pSteps env (g + 1) acc) anyQ s s' := by
      intro g
      rw [pSteps, pSteps]
      refine (loc_lexPathP hx env h hg).bind fun lx s1 s1' h1 g1 q1 => ?_
      obtain ⟨tok, val, err⟩ := lx
      have bad : PRep (.unexpectedLexeme ⟨tok, val, err⟩) s1.pos := by
        refine .inr fun k hk => ?_
        cases err with
        | none => cases hk
        | some e => exact q1.1 e rfl k hk
      cases tok with
      | eof => exact .pure h1 g1 trivial
      | error =>
        cases err with
        | some er => exact .fail (.lex q1.1 rfl)
        | none => trivial
      | nest =>
        refine (loc_lookPath hx env h1 g1).bind fun t s2 s2' h2 g2 _ => .ite (fun _ => ?_) fun _ => ?_
        · refine (loc_lexPathP hx env h2 g2).bind fun _ s3 s3' h3 g3 _ => (loc_pBrackets hx env h3 g3).bind fun sub s4 s4' h4 g4 _ => ?_
          generalize nestOp sub.op = o
          cases o with
          | none => trivial
          | some op => exact loc_pSteps hx env f g _ h4 g4
        · refine (loc_pMember hx env h2 g2).bind fun m s3 s3' h3 g3 _ => ?_
          cases m <;> exact loc_pSteps hx env f g _ h3 g3
      | ch c =>
        refine .ite (fun _ => ?_) fun _ => .ite (fun _ => ?_) fun _ => .fail bad
        · refine (loc_pMember hx env h1 g1).bind fun m s3 s3' h3 g3 _ => ?_
          cases m <;> exact loc_pSteps hx env f g _ h3 g3
        · exact (loc_pBrackets hx env h1 g1).bind fun sub s4 s4' h4 g4 _ => loc_pSteps hx env f g _ h4 g4
      | _ => exact .fail bad
    cases g with
    | zero => have := (key 0).stuck; rwa [pSteps.eq_def env 0]
    | succ g => exact key g

theorem loc_pPath (hx : x ≠ []) (env : Env) {s s' : LState} (h : RS x y N s s') (hg : s.Good) :
    Loc x y N (pPath env) (pPath env) anyQ s s' := by
  unfold pPath
  refine (loc_expect (loc_lexPathP hx env h hg)).bind fun _ s1 s1' h1 g1 _ => ?_
  have := loc_pSteps hx env (pathFuel s1) (pathFuel s1') [] h1 g1
  unfold Loc at this ⊢
  exact this

/-- The states in which two parsers of texts with a common beginning start. -/
theorem rs_start (c : Bytes) : RS x y c.length ⟨⟨[], c ++ x⟩, none⟩ ⟨⟨[], c ++ y⟩, none⟩ :=
  ⟨⟨by simp [Rd.pos], fun _ => ⟨rfl, c, rfl, rfl⟩⟩, fun _ => rfl⟩

/-- An error of `ParsePath` depends on the text up to the place it reports. -/
theorem parsePath_local {env : Env} {c x y : Bytes} {e : PErr} {k : Nat} (hx : x ≠ []) (h : parsePath env (c ++ x) = .err e)
    (hr : ∀ p o, e ≠ .badRegexp p o) (hk : k ∈ e.offsets) (hc : k + 1 < c.length) : parsePath env (c ++ y) = .err e := by
  have h1 := loc_pPath (y := y) hx env (rs_start c) (fun _ h => by cases h)
  have h2 := parsePath_ok env (c ++ y)
  unfold parsePath at h h2 ⊢
  unfold Loc at h1
  split at h <;> cases h
  next he =>
  rw [he] at h1
  obtain ⟨n, _, h3, h4⟩ := h1
  rcases h3 with ⟨p, o, h3⟩ | h3
  · exact absurd h3 (hr p o)
  · rcases h4 (Nat.lt_of_le_of_lt (h3 k hk) hc) with h4 | h4
    · rw [h4]
    · rw [h4] at h2
      rcases h2 with ⟨_, h2, _⟩ | ⟨_, h2, _⟩ <;> cases h2

/-- The same for `ParseScriptExpression`. -/
theorem parseScriptExpression_local {env : Env} {c x y : Bytes} {e : PErr} {k : Nat} (hx : x ≠ [])
    (h : parseScriptExpression env (c ++ x) = .err e)
    (hr : ∀ p o, e ≠ .badRegexp p o) (hk : k ∈ e.offsets) (hc : k + 1 < c.length) : parseScriptExpression env (c ++ y) = .err e := by
  have h1 : Loc x y c.length (do
      let e ← parseScriptExpr env
      let lx ← lexExprP env
      let off ← P.offset
      if lx.tok ≠ .eof then P.fail (.missingOperator off lx.tok) else pure e) (do
      let e ← parseScriptExpr env
      let lx ← lexExprP env
      let off ← P.offset
      if lx.tok ≠ .eof then P.fail (.missingOperator off lx.tok) else pure e) anyQ ⟨⟨[], c ++ x⟩, none⟩ ⟨⟨[], c ++ y⟩, none⟩ := by
    refine (loc_script hx env (rs_start c) (fun _ h => by cases h)).bind fun e s1 s1' h1 g1 _ => ?_
    refine (loc_lexExprP hx env h1 g1).bind fun lx s2 s2' h2 g2 _ => (loc_offset h2 g2).bind fun off s3 s3' h3 g3 q3 => ?_
    refine .ite (fun _ => .fail (.inr fun k hk => ?_)) fun _ => .pure h3 g3 trivial
    simp only [PErr.offsets, List.mem_singleton] at hk
    subst hk
    exact q3.2
  have h2 := parseScriptExpression_ok env (c ++ y)
  unfold parseScriptExpression at h h2 ⊢
  simp only at h h2 ⊢
  unfold Loc at h1
  split at h <;> cases h
  next he =>
  rw [he] at h1
  obtain ⟨n, _, h3, h4⟩ := h1
  rcases h3 with ⟨p, o, h3⟩ | h3
  · exact absurd h3 (hr p o)
  · rcases h4 (Nat.lt_of_le_of_lt (h3 k hk) hc) with h4 | h4
    · rw [h4]
    · rw [h4] at h2
      rcases h2 with ⟨_, h2, _⟩ | ⟨_, h2, _⟩ <;> cases h2

/-- Two texts with the same beginning. -/
theorem same_beginning {text text' : Bytes} {k : Nat} (hl : text.length ≠ k + 2) (ht : text'.take (k + 2) = text.take (k + 2)) :
    text' = text ∨ ∃ c x y, text = c ++ x ∧ text' = c ++ y ∧ x ≠ [] ∧ k + 1 < c.length := by
  rcases Nat.lt_or_ge (k + 2) text.length with h | h
  · refine .inr ⟨text.take (k + 2), text.drop (k + 2), text'.drop (k + 2), (List.take_append_drop _ _).symm, ?_, ?_, ?_⟩
    · rw [← ht]; exact (List.take_append_drop _ _).symm
    · intro h1
      have := congrArg List.length h1
      simp only [List.length_drop, List.length_nil] at this
      omega
    · rw [List.length_take]; omega
  · refine .inl ?_
    rw [List.take_of_length_le h] at ht
    rw [← ht]
    refine (List.take_of_length_le ?_).symm
    have := congrArg List.length ht
    rw [List.length_take] at this
    omega

theorem compile_parse (env : Env) {text : Bytes} {e : PErr} : Compile env text = .err (.parse e) ↔ parsePath env text = .err e := by
  unfold Compile
  split
  · next h => rw [h]; simp
  · next h => rw [h]; simp
  · next h => rw [h]; simp
  · next h =>
    rw [h]
    split <;> simp

end JP
