import Verif.Model.Api
import Verif.Spec.Text
import Verif.Proof.Lex
/-!
Two runs of the parser on texts with a common beginning, for C69: as long as the reader has not come to the
end of what the texts have in common, both do the same.
-/
set_option linter.unusedSimpArgs false
namespace JP

/-! ### Readers -/

/-- The number of bytes read. -/
abbrev Rd.pos (r : Rd) : Nat := r.before.length

section
variable (x y : Bytes) (N : Nat)

/-- Readers of two texts that have their first `N` bytes in common and go on with `x` and `y`: they are at the
same place, or the first one is past the common part. -/
def RR (r r' : Rd) : Prop :=
  r.pos + r.rest.length = N + x.length ∧
  (r.pos < N → r.before = r'.before ∧ ∃ c, r.rest = c ++ x ∧ r'.rest = c ++ y)

/-- A piece of the lexer does the same on both texts unless it comes to the end of the common part. -/
def RL {β : Type} (r : Rd) (a : β × Rd) (r' : Rd) (a' : β × Rd) : Prop :=
  r.pos ≤ a.2.pos ∧ ∃ r1', RR x y N a.2 r1' ∧ (a.2.pos < N → a' = (a.1, r1'))
end

variable {x y : Bytes} {N : Nat}

theorem RR.total {r r' : Rd} (h : RR x y N r r') : r.pos + r.rest.length = N + x.length := h.1

theorem RR.far {r r' : Rd} (h : r.pos + r.rest.length = N + x.length) (hn : N ≤ r.pos) : RR x y N r r' :=
  ⟨h, fun h => absurd h (by omega)⟩

/-- In the common part there is a next byte. -/
theorem RR.next {r r' : Rd} (h : RR x y N r r') (hn : r.pos < N) :
    ∃ c cs, r = ⟨r.before, c :: (cs ++ x)⟩ ∧ r' = ⟨r.before, c :: (cs ++ y)⟩ := by
  obtain ⟨h1, c, h2, h3⟩ := h.2 hn
  have := h.1
  rw [h2, List.length_append] at this
  cases c with
  | nil => simp only [List.length_nil] at this; omega
  | cons c cs =>
    refine ⟨c, cs, ?_, ?_⟩
    · cases r; simp only at h2 ⊢; rw [h2]; rfl
    · cases r'; simp only at h1 h3 ⊢; rw [← h1, h3]; rfl

theorem RR.look {r r' : Rd} (h : RR x y N r r') (hn : r.pos < N) : r'.look = r.look := by
  obtain ⟨c, cs, h1, h2⟩ := h.next hn
  rw [h1, h2]; rfl

theorem RR.offset {r r' : Rd} (h : RR x y N r r') (hn : r.pos < N) : r'.offset = r.offset := by
  unfold Rd.offset
  rw [(h.2 hn).1]

theorem rl_get {r r' : Rd} (h : RR x y N r r') : RL x y N r r.get r' r'.get := by
  obtain ⟨b, rest⟩ := r
  cases rest with
  | nil =>
    refine ⟨Nat.le_refl _, r', h, fun hn => ?_⟩
    obtain ⟨c, cs, h1, _⟩ := h.next hn
    cases h1
  | cons c cs =>
    refine ⟨by simp [Rd.get, Rd.pos], r'.get.2, ⟨?_, ?_⟩, ?_⟩
    · have := h.1
      simp only [Rd.get, Rd.pos, List.length_cons] at this ⊢
      omega
    · intro hn
      simp only [Rd.get, Rd.pos, List.length_cons] at hn
      obtain ⟨c', cs', h1, h2⟩ := h.next (by simp only [Rd.pos]; omega)
      cases h1
      rw [h2]
      exact ⟨rfl, cs', rfl, rfl⟩
    · intro hn
      simp only [Rd.get, Rd.pos, List.length_cons] at hn
      obtain ⟨c', cs', h1, h2⟩ := h.next (by simp only [Rd.pos]; omega)
      cases h1
      rw [h2]
      rfl

theorem takeWhile_total (p : UInt8 → Bool) : ∀ (rest before : Bytes),
    before.length ≤ (takeWhileGo p before rest).2.pos ∧
    (takeWhileGo p before rest).2.pos + (takeWhileGo p before rest).2.rest.length = before.length + rest.length
  | [], before => by simp [takeWhileGo, Rd.pos]
  | c :: cs, before => by
    unfold takeWhileGo
    split
    · have := takeWhile_total p cs (c :: before)
      simp only [List.length_cons] at this ⊢
      omega
    · simp [Rd.pos]

theorem takeWhile_common (p : UInt8 → Bool) (x y : Bytes) : ∀ (c before : Bytes),
    (takeWhileGo p before (c ++ x)).2.pos < before.length + c.length →
    ∃ c1, (takeWhileGo p before (c ++ x)).2.rest = c1 ++ x ∧
      takeWhileGo p before (c ++ y) = ((takeWhileGo p before (c ++ x)).1, ⟨(takeWhileGo p before (c ++ x)).2.before, c1 ++ y⟩)
  | [], before, h => by
    have := (takeWhile_total p x before).1
    simp only [List.nil_append, List.length_nil] at h this
    omega
  | c :: cs, before, h => by
    simp only [List.cons_append] at h ⊢
    unfold takeWhileGo at h ⊢
    split
    · next hp =>
      rw [if_pos hp] at h
      simp only [List.length_cons] at h
      obtain ⟨c1, h1, h2⟩ := takeWhile_common p x y cs (c :: before) (by simp only [List.length_cons]; omega)
      exact ⟨c1, h1, by simp only [h2]⟩
    · exact ⟨c :: cs, rfl, rfl⟩

theorem rl_takeWhile (p : UInt8 → Bool) {r r' : Rd} (h : RR x y N r r') : RL x y N r (r.takeWhile p) r' (r'.takeWhile p) := by
  unfold Rd.takeWhile
  obtain ⟨h1, h2⟩ := takeWhile_total p r.rest r.before
  refine ⟨h1, (takeWhileGo p r'.before r'.rest).2, ⟨by have := h.1; unfold Rd.pos at *; omega, ?_⟩, ?_⟩
  · intro hn
    obtain ⟨h3, c, h4, h5⟩ := h.2 (by unfold Rd.pos at *; omega)
    have h6 := h.1
    rw [h4, List.length_append] at h6
    rw [h4] at hn ⊢
    rw [← h3, h5]
    obtain ⟨c1, h7, h8⟩ := takeWhile_common p x y c r.before (by unfold Rd.pos at *; omega)
    rw [h8]
    exact ⟨rfl, c1, h7, rfl⟩
  · intro hn
    obtain ⟨h3, c, h4, h5⟩ := h.2 (by unfold Rd.pos at *; omega)
    have h6 := h.1
    rw [h4, List.length_append] at h6
    rw [h4] at hn ⊢
    rw [← h3, h5]
    obtain ⟨c1, h7, h8⟩ := takeWhile_common p x y c r.before (by unfold Rd.pos at *; omega)
    rw [h8]

/-- What `RL` gives for the second reader, in both cases. -/
theorem RL.rd {β : Type} {r : Rd} {a : β × Rd} {r' : Rd} {a' : β × Rd} (h : RL x y N r a r' a') : RR x y N a.2 a'.2 := by
  obtain ⟨_, r1, h1, h2⟩ := h
  refine ⟨h1.1, fun hn => ?_⟩
  rw [h2 hn]
  exact h1.2 hn

theorem RL.fst {β : Type} {r : Rd} {a : β × Rd} {r' : Rd} {a' : β × Rd} (h : RL x y N r a r' a') (hn : a.2.pos < N) : a'.1 = a.1 := by
  obtain ⟨_, r1, h1, h2⟩ := h
  rw [h2 hn]

theorem RL.le {β : Type} {r : Rd} {a : β × Rd} {r' : Rd} {a' : β × Rd} (h : RL x y N r a r' a') : r.pos ≤ a.2.pos := h.1

theorem rr_ws {r r' : Rd} (h : RR x y N r r') : r.pos ≤ r.ws.pos ∧ RR x y N r.ws r'.ws :=
  ⟨(rl_takeWhile isSpace h).le, (rl_takeWhile isSpace h).rd⟩

theorem Rd.unget_get {r : Rd} {c : UInt8} {r1 : Rd} (h : r.get = (some c, r1)) : r1.unget = r := by
  obtain ⟨b, rest⟩ := r
  cases rest with
  | nil => cases h
  | cons d ds => cases h; rfl

theorem Rd.get_none {r r1 : Rd} (h : r.get = (none, r1)) : r.rest = [] ∧ r1 = r := by
  obtain ⟨b, rest⟩ := r
  cases rest with
  | nil => cases h; exact ⟨rfl, rfl⟩
  | cons d ds => cases h

theorem Rd.get_pos {r r1 : Rd} {c : UInt8} (h : r.get = (some c, r1)) : r1.pos = r.pos + 1 := by
  obtain ⟨b, rest⟩ := r
  cases rest with
  | nil => cases h
  | cons d ds => cases h; rfl

/-- At the end of the first text the reader is past the common part, even after `unget`. -/
theorem RR.eof (hx : x ≠ []) {r r' : Rd} (h : RR x y N r r') (he : r.rest = []) :
    N ≤ r.pos ∧ N ≤ r.unget.pos ∧ r.unget.pos + r.unget.rest.length = N + x.length ∧ r.pos ≤ r.unget.pos + 1 := by
  have h1 := h.1
  have : 0 < x.length := List.length_pos_iff.2 hx
  rw [he] at h1
  obtain ⟨b, rest⟩ := r
  simp only at he
  subst he
  cases b with
  | nil => simp only [Rd.pos, Rd.unget, List.length_nil] at h1 ⊢; omega
  | cons c cs => simp only [Rd.pos, Rd.unget, List.length_nil, List.length_cons] at h1 ⊢; omega

/-! ### Lexemes -/

/-- An error in a lexeme reports the place where the reader is. -/
def LexRep (lx : Lexeme) (n : Nat) : Prop := ∀ e, lx.err = some e → ∀ k ∈ e.offsets, n ≤ k + 1

theorem LexRep.plain {t : Tok} {n : Nat} : LexRep (.plain t) n := fun _ h => by cases h
theorem LexRep.none {t : Tok} {v : LVal} {n : Nat} : LexRep ⟨t, v, .none⟩ n := fun _ h => by cases h
theorem LexRep.fail {e : LexErr} {n : Nat} (h : ∀ k ∈ e.offsets, n ≤ k + 1) : LexRep (.fail e) n := by
  intro e' h'
  simp only [Lexeme.fail, Option.some.injEq] at h'
  subst h'
  exact h

/-- A piece of the lexer that may run out of fuel does the same on both texts, or the second runs out; it does
not go back before `n`. -/
def OL {β : Type} (x y : Bytes) (N : Nat) (n : Nat) (a a' : Option (β × Rd)) : Prop :=
  match a with
  | none => True
  | some (v, r1) => n ≤ r1.pos ∧ ∃ r1', RR x y N r1 r1' ∧ (r1.pos < N → a' = some (v, r1') ∨ a' = none)

theorem OL.of_rl {β : Type} {r r' : Rd} {a a' : β × Rd} (h : RL x y N r a r' a') : OL x y N r.pos (some a) (some a') := by
  obtain ⟨h1, r1, h2, h3⟩ := h
  exact ⟨h1, r1, h2, fun hn => .inl (by rw [h3 hn])⟩

theorem OL.le {β : Type} {n m : Nat} {a a' : Option (β × Rd)} (h : OL x y N n a a') (hp : m ≤ n) : OL x y N m a a' := by
  unfold OL at h ⊢
  split
  · trivial
  · exact ⟨Nat.le_trans hp h.1, h.2⟩

theorem OL.none {β : Type} {n : Nat} {a a' : Option (β × Rd)} (h : OL x y N n a a') : OL x y N n a .none := by
  unfold OL at h ⊢
  split
  · trivial
  · obtain ⟨h1, r1, h2, _⟩ := h
    exact ⟨h1, r1, h2, fun _ => .inr rfl⟩

theorem OL.swap {β : Type} {n : Nat} {a a' a2' : Option (β × Rd)} (h : OL x y N n a a') (hn : N ≤ n) : OL x y N n a a2' := by
  unfold OL at h ⊢
  split
  · trivial
  · obtain ⟨h1, r1, h2, _⟩ := h
    exact ⟨h1, r1, h2, fun hlt => absurd hlt (by omega)⟩

theorem OL.ite {β : Type} {p : Prop} [Decidable p] {n : Nat} {a a' b b' : Option (β × Rd)}
    (h1 : OL x y N n a a') (h2 : OL x y N n b b') : OL x y N n (if p then a else b) (if p then a' else b') := by
  split
  · exact h1
  · exact h2

theorem RL.le' {β : Type} {r0 r r' r0' : Rd} {a a' : β × Rd} (hp : r0.pos ≤ r.pos) (h : RL x y N r a r' a') : RL x y N r0 a r0' a' :=
  ⟨Nat.le_trans hp h.1, h.2⟩

/-- Past the common part nothing is claimed of the second run. -/
theorem RL.far {β : Type} {r r' : Rd} {a a' : β × Rd} (hp : r.pos ≤ a.2.pos) (ht : a.2.pos + a.2.rest.length = N + x.length)
    (hn : N ≤ a.2.pos) : RL x y N r a r' a' := ⟨hp, r, .far ht hn, fun h => absurd h (by omega)⟩

theorem RL.same {β : Type} {r r' : Rd} (b : β) (h : RR x y N r r') : RL x y N r (b, r) r' (b, r') :=
  ⟨Nat.le_refl _, r', h, fun _ => rfl⟩

/-- Two steps of a lexer one after the other. -/
theorem RL.bind {β γ : Type} {r r' : Rd} {a a' : β × Rd} (h : RL x y N r a r' a') {f f' : β → Rd → γ × Rd}
    (hf : RL x y N a.2 (f a.1 a.2) a'.2 (f' a.1 a'.2)) : RL x y N r (f a.1 a.2) r' (f' a'.1 a'.2) := by
  refine ⟨Nat.le_trans h.1 hf.1, (f' a.1 a'.2).2, hf.rd, fun hn => ?_⟩
  rw [h.fst (Nat.lt_of_le_of_lt hf.1 hn)]
  obtain ⟨_, _, _, h3⟩ := hf
  rw [h3 hn]

theorem isNext_total (c : UInt8) (t f : Tok) (r : Rd) : r.pos ≤ (isNext c t f r).2.pos ∧
    (isNext c t f r).2.pos + (isNext c t f r).2.rest.length = r.pos + r.rest.length := by
  unfold isNext
  split
  · obtain ⟨b, rest⟩ := r
    cases rest <;> simp [Rd.get, Rd.pos] <;> omega
  · split <;> simp

theorem rl_isNext (c : UInt8) (t f : Tok) {r r' : Rd} (h : RR x y N r r') : RL x y N r (isNext c t f r) r' (isNext c t f r') := by
  rcases Nat.lt_or_ge r.pos N with hn | hn
  · unfold isNext
    rw [h.look hn, h.offset hn]
    split
    · have := rl_get h
      refine ⟨this.1, r'.get.2, this.rd, fun _ => rfl⟩
    · split
      · exact .same _ h
      · exact .same _ h
  · have := isNext_total c t f r
    exact .far this.1 (this.2.trans h.1) (Nat.le_trans hn this.1)

theorem Rd.pos_le_offset (r : Rd) : r.pos ≤ r.offset + 1 := by unfold Rd.offset Rd.pos; omega

theorem isNext_rep (c : UInt8) (t f : Tok) (r : Rd) : LexRep (isNext c t f r).1 (isNext c t f r).2.pos := by
  unfold isNext
  split
  · exact .plain
  · split
    · refine .fail fun k hk => ?_
      simp only [LexErr.offsets, List.mem_singleton] at hk
      subst hk
      exact r.pos_le_offset
    · exact .plain

theorem tokenErr_rep (c : Option UInt8) (r : Rd) : LexRep (tokenErr c r).1 (tokenErr c r).2.pos := by
  refine .fail fun k hk => ?_
  simp only [LexErr.offsets, List.mem_singleton] at hk
  subst hk
  exact r.pos_le_offset

theorem rl_tokenErr (c : Option UInt8) {r r' : Rd} (h : RR x y N r r') : RL x y N r (tokenErr c r) r' (tokenErr c r') := by
  refine ⟨Nat.le_refl _, r', h, fun hn => ?_⟩
  unfold tokenErr
  rw [h.offset hn]

/-- Where the first reader is past the common part, the second run does not matter. -/
theorem RL.swap {β : Type} {r r' r2' : Rd} {a a' a2' : β × Rd} (h : RL x y N r a r' a') (hn : N ≤ r.pos) : RL x y N r a r2' a2' := by
  obtain ⟨h1, r1, h2, _⟩ := h
  exact ⟨h1, r1, h2, fun hlt => absurd hlt (by omega)⟩

theorem RL.ite {β : Type} {p p' : Prop} [Decidable p] [Decidable p'] {r r' : Rd} {a a' b b' : β × Rd} (hp : r.pos < N → (p' ↔ p))
    (h1 : RL x y N r a r' a') (h2 : RL x y N r b r' b') : RL x y N r (if p then a else b) r' (if p' then a' else b') := by
  rcases Nat.lt_or_ge r.pos N with hn | hn
  · have := hp hn
    by_cases h : p
    · rw [if_pos h, if_pos (this.2 h)]; exact h1
    · rw [if_neg h, if_neg (fun h' => h (this.1 h'))]; exact h2
  · by_cases h : p
    · rw [if_pos h]; exact h1.swap hn
    · rw [if_neg h]; exact h2.swap hn

/-- A choice by the next byte. -/
def onNext {β : Type} (r : Rd) (A : UInt8 → Rd → β) (B : β) : β :=
  match r.get with
  | (some e, r1) => A e r1
  | (none, _) => B

theorem rl_next {β : Type} {A A' : UInt8 → Rd → β × Rd} {B B' : β × Rd} {r r' : Rd} (h : RR x y N r r')
    (hA : ∀ e, RL x y N r (A e r.get.2) r' (A' e r'.get.2)) (hB : RL x y N r B r' B') :
    RL x y N r (onNext r A B) r' (onNext r' A' B') := by
  rcases Nat.lt_or_ge r.pos N with hn | hn
  · obtain ⟨c, cs, h1, h2⟩ := h.next hn
    have := hA c
    rw [h1, h2] at this ⊢
    exact this
  · unfold onNext
    split
    · next e r1 hg =>
      have := hA e
      rw [hg] at this
      exact this.swap hn
    · exact hB.swap hn

/-! ### Numbers -/

/-- The end of `lexNumber` for a number with a point. -/
def numFinish (env : Env) (text : Bytes) (r : Rd) : Lexeme × Rd :=
  match env.parseFloat text with
  | none => (.fail (.parseFloat text), r)
  | some f => (⟨.real, .float f, none⟩, r)

/-- The digits of an exponent have been read. -/
def numExp (env : Env) (text : Bytes) (es : Bytes) (r : Rd) : Lexeme × Rd :=
  if es.isEmpty then (.fail .badReal, r) else numFinish env (text ++ es) r

/-- The digits of an exponent are to be read. -/
def numDigits (env : Env) (text : Bytes) (r : Rd) : Lexeme × Rd := numExp env text (r.takeWhile isDigit).1 (r.takeWhile isDigit).2

/-- The sign of an exponent is to be read. -/
def numSign (env : Env) (text : Bytes) (r : Rd) : Lexeme × Rd :=
  onNext r (fun s r1 => if (s == c! '+' || s == c! '-') = true then numDigits env (text ++ [s]) r1 else numDigits env text r) (numDigits env text r)

/-- An exponent may follow. -/
def numFrac (env : Env) (text : Bytes) (r : Rd) : Lexeme × Rd :=
  onNext r (fun e r1 => if (e == c! 'e' || e == c! 'E') = true then numSign env (text ++ [e]) r1 else numFinish env text r)
    (numFinish env text r)

/-- The point has been read. -/
def numPoint (env : Env) (ds : Bytes) (r : Rd) : Lexeme × Rd :=
  numFrac env (ds ++ c! '.' :: (r.takeWhile isDigit).1) (r.takeWhile isDigit).2

/-- The digits before a point have been read. -/
def numWhole (env : Env) (real : Bool) (ds : Bytes) (r : Rd) : Lexeme × Rd :=
  if (!real || r.look != some (c! '.')) = true then
    match parseInt ds with
    | none => (.fail (.parseInt ds), r)
    | some v => (⟨.int, .int v, none⟩, r)
  else numPoint env ds r.get.2

/-- `lexNumber` from its first digit on. -/
def number (env : Env) (real : Bool) (r : Rd) : Lexeme × Rd := numWhole env real (r.takeWhile isDigit).1 (r.takeWhile isDigit).2

theorem takeWhile_empty {p : UInt8 → Bool} {r : Rd} (h : (r.takeWhile p).1.isEmpty = true) : (r.takeWhile p).2 = r := by
  rw [r.takeWhile_spec] at h ⊢
  obtain ⟨b, rest⟩ := r
  simp only [List.isEmpty_iff] at h ⊢
  have := takeWhile_append_dropWhile' p rest
  rw [h] at this ⊢
  simp only [List.nil_append] at this
  rw [this]; rfl

theorem lexNumber_eq {env : Env} {real : Bool} {r r1 : Rd} {c : UInt8} (h : r.get = (some c, r1)) :
    lexNumber env real r1 = number env real r := by
  unfold lexNumber number numWhole
  rw [Rd.unget_get h]
  simp only
  split
  · rfl
  · unfold numPoint numFrac onNext
    simp only
    generalize (Rd.takeWhile isDigit (Rd.takeWhile isDigit r).2.get.2) = t
    obtain ⟨fs, r2⟩ := t
    simp only
    rcases hg : r2.get with ⟨_ | e, r3⟩
    · rfl
    · simp only
      by_cases he : (e == c! 'e' || e == c! 'E') = true
      · rw [if_pos he, if_pos he]
        unfold numSign onNext numDigits numExp
        have fin : ∀ (pre sg : Bytes) (r4 : Rd), (if (r4.takeWhile isDigit).1.isEmpty = true then (Lexeme.fail .badReal, r4)
            else match env.parseFloat (pre ++ e :: sg ++ (r4.takeWhile isDigit).1) with
              | none => (Lexeme.fail (.parseFloat (pre ++ e :: sg ++ (r4.takeWhile isDigit).1)), (r4.takeWhile isDigit).2)
              | some f => (⟨.real, .float f, none⟩, (r4.takeWhile isDigit).2)) =
            (if (r4.takeWhile isDigit).1.isEmpty = true then (Lexeme.fail .badReal, (r4.takeWhile isDigit).2)
            else numFinish env (pre ++ e :: sg ++ (r4.takeWhile isDigit).1) (r4.takeWhile isDigit).2) := by
          intro pre sg r4
          by_cases hm : (r4.takeWhile isDigit).1.isEmpty = true
          · rw [if_pos hm, if_pos hm, takeWhile_empty hm]
          · rw [if_neg hm, if_neg hm]; rfl
        rcases hs : r3.get with ⟨_ | sg, r4⟩
        · simp only
          refine (fin _ [] r3).trans ?_
          simp only [List.append_assoc, List.cons_append, List.nil_append]
        · simp only
          by_cases hp : (sg == c! '+' || sg == c! '-') = true
          · rw [if_pos hp, if_pos hp]
            refine (fin _ [sg] r4).trans ?_
            simp only [List.append_assoc, List.cons_append, List.nil_append]
          · rw [if_neg hp, if_neg hp]
            refine (fin _ [] r3).trans ?_
            simp only [List.append_assoc, List.cons_append, List.nil_append]
      · rw [if_neg he, if_neg he]; rfl

theorem rl_numFinish (env : Env) (text : Bytes) {r r' : Rd} (h : RR x y N r r') :
    RL x y N r (numFinish env text r) r' (numFinish env text r') := by
  unfold numFinish
  split <;> exact .same _ h

theorem rl_numDigits (env : Env) (text : Bytes) {r r' : Rd} (h : RR x y N r r') :
    RL x y N r (numDigits env text r) r' (numDigits env text r') := by
  have h1 := rl_takeWhile isDigit h
  refine RL.bind (f := numExp env text) (f' := numExp env text) h1 ?_
  unfold numExp
  exact .ite (fun _ => Iff.rfl) (.same _ h1.rd) (rl_numFinish _ _ h1.rd)

theorem rl_numSign (env : Env) (text : Bytes) {r r' : Rd} (h : RR x y N r r') :
    RL x y N r (numSign env text r) r' (numSign env text r') := by
  have h1 := rl_get h
  refine rl_next h (fun s => ?_) (rl_numDigits _ _ h)
  exact .ite (fun _ => Iff.rfl) ((rl_numDigits _ _ h1.rd).le' h1.le) (rl_numDigits _ _ h)

theorem rl_numFrac (env : Env) (text : Bytes) {r r' : Rd} (h : RR x y N r r') :
    RL x y N r (numFrac env text r) r' (numFrac env text r') := by
  have h1 := rl_get h
  refine rl_next h (fun s => ?_) (rl_numFinish _ _ h)
  exact .ite (fun _ => Iff.rfl) ((rl_numSign _ _ h1.rd).le' h1.le) (rl_numFinish _ _ h)

theorem rl_numPoint (env : Env) (ds : Bytes) {r r' : Rd} (h : RR x y N r r') :
    RL x y N r (numPoint env ds r) r' (numPoint env ds r') := by
  have h1 := rl_takeWhile isDigit h
  exact RL.bind (f := fun fs r => numFrac env (ds ++ c! '.' :: fs) r) (f' := fun fs r => numFrac env (ds ++ c! '.' :: fs) r) h1 (rl_numFrac _ _ h1.rd)

theorem rl_number (env : Env) (real : Bool) {r r' : Rd} (h : RR x y N r r') :
    RL x y N r (number env real r) r' (number env real r') := by
  have h1 := rl_takeWhile isDigit h
  refine RL.bind (f := numWhole env real) (f' := numWhole env real) h1 ?_
  unfold numWhole
  refine .ite (fun hn => by rw [h1.rd.look hn]) ?_ ((rl_numPoint _ _ (rl_get h1.rd).rd).le' (rl_get h1.rd).le)
  split <;> exact .same _ h1.rd

theorem number_rep (env : Env) (real : Bool) (r : Rd) (n : Nat) : LexRep (number env real r).1 n := by
  have fin : ∀ text r, LexRep (numFinish env text r).1 n := by
    intro text r
    unfold numFinish
    split
    · exact .fail (by simp [LexErr.offsets])
    · exact .none
  have dig : ∀ text r, LexRep (numDigits env text r).1 n := by
    intro text r
    unfold numDigits numExp
    split
    · exact .fail (by simp [LexErr.offsets])
    · exact fin _ _
  unfold number numWhole
  split
  · split
    · exact .fail (by simp [LexErr.offsets])
    · exact .none
  · unfold numPoint numFrac onNext
    split
    · simp only
      split
      · unfold numSign onNext
        split
        · simp only
          split <;> exact dig _ _
        · exact dig _ _
      · exact fin _ _
    · exact fin _ _

/-! ### Identifiers and strings -/

/-- `lexID` from its first letter on. -/
def ident (p : UInt8 → Bool) (r : Rd) : Lexeme × Rd := (⟨.id, .str (r.takeWhile p).1, none⟩, (r.takeWhile p).2)

theorem lexID_eq {p : UInt8 → Bool} {r r1 : Rd} {c : UInt8} (h : r.get = (some c, r1)) : lexID p r1 = ident p r := by
  unfold lexID ident
  rw [Rd.unget_get h]

theorem rl_ident (p : UInt8 → Bool) {r r' : Rd} (h : RR x y N r r') : RL x y N r (ident p r) r' (ident p r') := by
  have h1 := rl_takeWhile p h
  exact RL.bind (f := fun s r => ((⟨.id, .str s, none⟩ : Lexeme), r)) (f' := fun s r => ((⟨.id, .str s, none⟩ : Lexeme), r)) h1 (.same _ h1.rd)

theorem rl_hexDigits : ∀ (n acc : Nat) {r r' : Rd}, RR x y N r r' → RL x y N r (hexDigits n acc r) r' (hexDigits n acc r')
  | 0, acc, r, r', h => .same _ h
  | n + 1, acc, r, r', h => by
    have h1 := rl_get h
    have e : ∀ r, hexDigits (n + 1) acc r =
        onNext r (fun c r1 => if isHexDigit c = true then hexDigits n (acc * 16 + hexVal c) r1 else (.error .shortEscape, r)) (.error .unclosedString, r) := by
      intro r
      obtain ⟨b, rest⟩ := r
      cases rest <;> rfl
    rw [e, e]
    refine rl_next h (fun c => ?_) (.same _ h)
    exact .ite (fun _ => Iff.rfl) ((rl_hexDigits n _ h1.rd).le' h1.le) (.same _ h)

theorem rl_escaped (cq : UInt8) {r r' : Rd} (h : RR x y N r r') : RL x y N r (escaped cq r) r' (escaped cq r') := by
  have h1 := rl_get h
  have e : ∀ r, escaped cq r = onNext r (fun c r1 =>
      if (c == c! '\\' || c == c! '/') = true then (.ok c.toNat, r1)
      else if (c == c! 't') = true then (.ok 9, r1)
      else if (c == c! 'f') = true then (.ok 12, r1)
      else if (c == c! 'n') = true then (.ok 10, r1)
      else if (c == c! 'r') = true then (.ok 13, r1)
      else if (c == c! 'b') = true then (.ok 8, r1)
      else if (c == c! 'u') = true then hexDigits 4 0 r1
      else if (c != cq) = true then (.error .badEscape, r)
      else (.ok cq.toNat, r1)) (.error .unclosedString, r) := by
    intro r
    obtain ⟨b, rest⟩ := r
    cases rest <;> rfl
  rw [e, e]
  refine rl_next h (fun c => ?_) (.same _ h)
  have one : ∀ v : Except LexErr Nat, RL x y N r (v, r.get.2) r' (v, r'.get.2) := fun v => (RL.same v h1.rd).le' h1.le
  exact .ite (fun _ => Iff.rfl) (one _) <| .ite (fun _ => Iff.rfl) (one _) <| .ite (fun _ => Iff.rfl) (one _) <|
    .ite (fun _ => Iff.rfl) (one _) <| .ite (fun _ => Iff.rfl) (one _) <| .ite (fun _ => Iff.rfl) (one _) <|
    .ite (fun _ => Iff.rfl) ((rl_hexDigits 4 0 h1.rd).le' h1.le) <| .ite (fun _ => Iff.rfl) (.same _ h) (one _)

theorem ol_next {β : Type} {A A' : UInt8 → Rd → Option (β × Rd)} {B B' : Option (β × Rd)} {r r' : Rd} {n : Nat} (h : RR x y N r r')
    (hr : n ≤ r.pos) (hA : ∀ e, OL x y N r.pos (A e r.get.2) (A' e r'.get.2))
    (hB : r.rest = [] → ∃ m B', n ≤ m ∧ N ≤ m ∧ OL x y N m B B') :
    OL x y N n (onNext r A B) (onNext r' A' B') ∧ (N ≤ r.pos → ∀ a', OL x y N n (onNext r A B) a') := by
  have far : N ≤ r.pos → ∀ a', OL x y N n (onNext r A B) a' := by
    intro hn a'
    unfold onNext
    split
    · next e r1 hg =>
      have := hA e
      rw [hg] at this
      exact (this.swap hn).le hr
    · next hg =>
      obtain ⟨m, B'', h1, h2, hb⟩ := hB (Rd.get_none hg).1
      exact (hb.swap h2).le h1
  refine ⟨?_, far⟩
  rcases Nat.lt_or_ge r.pos N with hn | hn
  · obtain ⟨c, cs, h1, h2⟩ := h.next hn
    have := (hA c).le hr
    rw [h1, h2] at this ⊢
    exact this
  · exact far hn _

/-- What an escape adds to a string. -/
def escAcc (acc : Bytes) (surr rv : Nat) : Bytes × Nat :=
  if surr != 0 then
    let paired := decodeSurrogates surr rv
    let acc := acc ++ encodeRune paired
    if paired != 0xFFFD then (acc, 0) else (acc ++ encodeRune rv, 0)
  else if isSurrogate rv then (acc, rv)
  else (acc ++ encodeRune rv, 0)

/-- The string when no escape follows. -/
def escEnd (a : Bytes × Nat) : Bytes := if a.2 != 0 then a.1 ++ encodeRune 0xFFFD else a.1

/-- After an escape. -/
def escRest (cq : UInt8) (f : Nat) (a : Bytes × Nat) (r : Rd) : StrRes :=
  onNext r (fun c r1 => if c = 92 then escLoop cq f a.1 a.2 r1 else strLoop cq f (escEnd a) r) (strLoop cq f (escEnd a) r.unget)

theorem escLoop_eq (cq : UInt8) (f : Nat) (acc : Bytes) (surr : Nat) (r : Rd) : escLoop cq (f + 1) acc surr r =
    match (escaped cq r).1 with
    | .error e => some (.error e, (escaped cq r).2)
    | .ok rv => escRest cq f (escAcc acc surr rv) (escaped cq r).2 := by
  rw [escLoop]
  rcases escaped cq r with ⟨_ | rv, r1⟩
  · rfl
  · simp only
    unfold escRest onNext
    rcases hg : r1.get with ⟨_ | c, r2⟩
    · obtain ⟨h1, h2⟩ := Rd.get_none hg
      subst h2
      rfl
    · simp only
      by_cases hc : c = 92
      · subst hc; rfl
      · rw [if_neg hc]
        rw [← Rd.unget_get hg]
        split
        · next h => cases h; exact absurd rfl hc
        · next h => cases h; rfl

mutual
theorem ol_strLoop (hx : x ≠ []) (cq : UInt8) : ∀ (f g : Nat) (acc : Bytes) {r r' : Rd}, RR x y N r r' →
    OL x y N r.pos (strLoop cq f acc r) (strLoop cq g acc r')
  | 0, g, acc, r, r', h => trivial
  | f + 1, g, acc, r, r', h => by
    have h1 := rl_get h
    have e : ∀ f r, strLoop cq (f + 1) acc r = onNext r (fun c r1 => if (c == cq) = true then some (.ok acc, r1)
        else if (c == c! '\\') = true then escLoop cq f acc 0 r1
        else if c < 0x20 then some (.error .ctrlChar, r1) else strLoop cq f (acc ++ [c]) r1) (some (.error .unclosedString, r)) := by
      intro f r
      obtain ⟨b, rest⟩ := r
      cases rest <;> rfl
    have key : ∀ g, OL x y N r.pos (strLoop cq (f + 1) acc r) (strLoop cq (g + 1) acc r') := by
      intro g
      rw [e, e]
      refine (ol_next h (Nat.le_refl _) (fun c => ?_)
        (fun he => ⟨_, _, Nat.le_refl _, (h.eof hx he).1, .of_rl (.same (r' := r') _ h)⟩)).1
      exact .ite ((OL.of_rl (.same _ h1.rd)).le h1.le) <| .ite ((ol_escLoop hx cq f g acc 0 h1.rd).le h1.le) <|
        .ite ((OL.of_rl (.same _ h1.rd)).le h1.le) ((ol_strLoop hx cq f g _ h1.rd).le h1.le)
    cases g with
    | zero => exact (key 0).none
    | succ g => exact key g

theorem ol_escLoop (hx : x ≠ []) (cq : UInt8) : ∀ (f g : Nat) (acc : Bytes) (surr : Nat) {r r' : Rd}, RR x y N r r' →
    OL x y N r.pos (escLoop cq f acc surr r) (escLoop cq g acc surr r')
  | 0, g, acc, surr, r, r', h => trivial
  | f + 1, g, acc, surr, r, r', h => by
    have h1 := rl_escaped cq h
    have key : ∀ g, OL x y N r.pos (escLoop cq (f + 1) acc surr r) (escLoop cq (g + 1) acc surr r') := by
      intro g
      rw [escLoop_eq, escLoop_eq]
      obtain ⟨-, -, hlt, -⟩ := escaped_ok cq r
      have h2 := h1.rd
      have h3 : ∀ rv, (escaped cq r).1 = .ok rv → ∀ a,
          OL x y N r.pos (escRest cq f a (escaped cq r).2) (escRest cq g a (escaped cq r').2) ∧
          (N ≤ (escaped cq r).2.pos → ∀ a', OL x y N r.pos (escRest cq f a (escaped cq r).2) a') := by
        intro rv hrv a
        have h4 := rl_get h2
        have hlt := hlt rv hrv
        have t1 := h.total
        have t2 := h2.total
        unfold escRest
        refine ol_next h2 h1.le (fun c => ?_) (fun he => ?_)
        · exact .ite ((ol_escLoop hx cq f g _ _ h4.rd).le h4.le) (ol_strLoop hx cq f g _ h2)
        · obtain ⟨e1, e2, e3, e4⟩ := h2.eof hx he
          exact ⟨_, _, by omega, e2, ol_strLoop hx cq f g _ (.far (r' := r') e3 e2)⟩
      rcases Nat.lt_or_ge (escaped cq r).2.pos N with hn | hn
      · rw [h1.fst hn]
        split
        · exact (OL.of_rl (.same _ h2)).le h1.le
        · next rv hrv => exact (h3 rv hrv _).1
      · split
        · exact ((OL.of_rl (.same _ h2)).swap hn).le h1.le
        · next rv hrv => exact (h3 rv hrv _).2 hn _
    cases g with
    | zero => exact (key 0).none
    | succ g => exact key g
end

/-- A lexer does the same on both texts, and the errors in its lexeme report where it stopped. -/
def LL (x y : Bytes) (N n : Nat) (a a' : Option (Lexeme × Rd)) : Prop :=
  OL x y N n a a' ∧ ∀ lx r1, a = some (lx, r1) → LexRep lx r1.pos

theorem LL.of_rl {r r' : Rd} {a a' : Lexeme × Rd} (h : RL x y N r a r' a') (hl : LexRep a.1 a.2.pos) : LL x y N r.pos (some a) (some a') :=
  ⟨.of_rl h, fun lx r1 h => by cases h; exact hl⟩

theorem LL.le {n m : Nat} {a a' : Option (Lexeme × Rd)} (h : LL x y N n a a') (hp : m ≤ n) : LL x y N m a a' := ⟨h.1.le hp, h.2⟩

theorem LL.swap {n : Nat} {a a' a2' : Option (Lexeme × Rd)} (h : LL x y N n a a') (hn : N ≤ n) : LL x y N n a a2' := ⟨h.1.swap hn, h.2⟩

theorem LL.ite {p : Prop} [Decidable p] {n : Nat} {a a' b b' : Option (Lexeme × Rd)}
    (h1 : LL x y N n a a') (h2 : LL x y N n b b') : LL x y N n (if p then a else b) (if p then a' else b') := by
  split
  · exact h1
  · exact h2

theorem hexDigits_offsets : ∀ (n acc : Nat) (r r1 : Rd) (e : LexErr), hexDigits n acc r = (.error e, r1) → e.offsets = []
  | 0, acc, r, r1, e, h => by cases h
  | n + 1, acc, ⟨b, []⟩, r1, e, h => by cases h; rfl
  | n + 1, acc, ⟨b, c :: cs⟩, r1, e, h => by
    have e' : hexDigits (n + 1) acc ⟨b, c :: cs⟩ =
      if isHexDigit c = true then hexDigits n (acc * 16 + hexVal c) ⟨c :: b, cs⟩ else (.error .shortEscape, ⟨b, c :: cs⟩) := rfl
    rw [e'] at h
    split at h
    · exact hexDigits_offsets n _ _ _ _ h
    · cases h; rfl

theorem escaped_offsets (cq : UInt8) (r r1 : Rd) (e : LexErr) (h : escaped cq r = (.error e, r1)) : e.offsets = [] := by
  unfold escaped at h
  split at h
  · cases h; rfl
  · repeat' split at h
    all_goals first | exact hexDigits_offsets _ _ _ _ _ h | (cases h; done) | (cases h; rfl)

mutual
theorem strLoop_offsets (cq : UInt8) : ∀ (f : Nat) (acc : Bytes) (r r1 : Rd) (e : LexErr),
    strLoop cq f acc r = some (.error e, r1) → e.offsets = []
  | 0, acc, r, r1, e, h => by cases h
  | f + 1, acc, r, r1, e, h => by
    unfold strLoop at h
    split at h
    · cases h; rfl
    · repeat' split at h
      · cases h
      · exact escLoop_offsets cq f _ _ _ _ _ h
      · cases h; rfl
      · exact strLoop_offsets cq f _ _ _ _ h

theorem escLoop_offsets (cq : UInt8) : ∀ (f : Nat) (acc : Bytes) (surr : Nat) (r r1 : Rd) (e : LexErr),
    escLoop cq f acc surr r = some (.error e, r1) → e.offsets = []
  | 0, acc, surr, r, r1, e, h => by cases h
  | f + 1, acc, surr, r, r1, e, h => by
    rw [escLoop_eq] at h
    split at h
    · next e' he =>
      cases h
      exact escaped_offsets cq r (escaped cq r).2 e (by rw [← he])
    · unfold escRest onNext at h
      split at h
      · simp only at h
        split at h
        · exact escLoop_offsets cq f _ _ _ _ _ h
        · exact strLoop_offsets cq f _ _ _ _ h
      · exact strLoop_offsets cq f _ _ _ _ h
end

theorem ll_lexQuoted (hx : x ≠ []) (cq : UInt8) {r r' : Rd} (h : RR x y N r r') : LL x y N r.pos (lexQuoted cq r) (lexQuoted cq r') := by
  unfold lexQuoted lexString
  have h1 := ol_strLoop hx cq (2 * r.rest.length + 4) (2 * r'.rest.length + 4) [] h
  generalize ha : strLoop cq (2 * r.rest.length + 4) [] r = a at h1 ⊢
  generalize strLoop cq (2 * r'.rest.length + 4) [] r' = a' at h1 ⊢
  rcases a with _ | ⟨_ | s, r1⟩
  · exact ⟨trivial, fun _ _ h => by cases h⟩
  · obtain ⟨h2, r1', h3, h4⟩ := h1
    refine ⟨⟨h2, r1', h3, fun hn => ?_⟩, fun lx r2 h => ?_⟩
    · rcases h4 hn with h4 | h4 <;> rw [h4]
      · exact .inl rfl
      · exact .inr rfl
    · cases h
      exact .fail (by rw [(strLoop_offsets cq _ _ _ _ _ ha)]; simp)
  · obtain ⟨h2, r1', h3, h4⟩ := h1
    refine ⟨⟨h2, r1', h3, fun hn => ?_⟩, fun lx r2 h => ?_⟩
    · rcases h4 hn with h4 | h4 <;> rw [h4]
      · exact .inl rfl
      · exact .inr rfl
    · cases h
      exact .none

/-! ### The lexers -/

theorem isNext_ll (c : UInt8) (t f : Tok) {r r' : Rd} (h : RR x y N r r') : LL x y N r.pos (some (isNext c t f r)) (some (isNext c t f r')) :=
  .of_rl (rl_isNext c t f h) (isNext_rep c t f r)

theorem ll_next {A A' : UInt8 → Rd → Option (Lexeme × Rd)} {B B' : Option (Lexeme × Rd)} {r r' : Rd} {n : Nat} (h : RR x y N r r')
    (hr : n ≤ r.pos) (hA : ∀ e, r.get = (some e, r.get.2) → LL x y N r.pos (A e r.get.2) (A' e r'.get.2))
    (hB : r.rest = [] → ∃ m B', n ≤ m ∧ N ≤ m ∧ LL x y N m B B') : LL x y N n (onNext r A B) (onNext r' A' B') := by
  rcases Nat.lt_or_ge r.pos N with hn | hn
  · obtain ⟨c, cs, h1, h2⟩ := h.next hn
    have := (hA c (by rw [h1]; rfl)).le hr
    rw [h1, h2] at this ⊢
    exact this
  · unfold onNext
    split
    · next e r1 hg =>
      have := hA e (by rw [hg])
      rw [hg] at this
      exact (this.swap hn).le hr
    · next hg =>
      obtain ⟨m, B'', h1, h2, hb⟩ := hB (Rd.get_none hg).1
      exact (hb.swap h2).le h1

theorem LL.bind {β : Type} {r r' : Rd} {a a' : β × Rd} (h : RL x y N r a r' a') {f f' : β → Rd → Option (Lexeme × Rd)}
    (hf : LL x y N a.2.pos (f a.1 a.2) (f' a.1 a'.2)) : LL x y N r.pos (f a.1 a.2) (f' a'.1 a'.2) := by
  rcases Nat.lt_or_ge a.2.pos N with hn | hn
  · rw [h.fst hn]
    exact hf.le h.le
  · exact (hf.swap hn).le h.le

/-- After `=`. -/
def eqNext (lx : Lexeme) (r : Rd) : Option (Lexeme × Rd) :=
  if (lx.tok != .ch (c! '=')) = true then some (lx, r) else some (isNext (c! '~') .match_ (.ch (c! '=')) r)

/-- After `-` and a number. -/
def negNext (c : UInt8) (fol : Lexeme) (r : Rd) : Option (Lexeme × Rd) :=
  if (fol.tok != .int) = true then some (tokenErr (some c) r)
  else match fol.val with
    | .int n => if (n == Int64.maxValue) = true then some (.fail .intOverflow, r) else some ({ fol with val := .int (-n) }, r)
    | _ => none

/-- `lexExpr` from the first byte on. -/
def exprAt (env : Env) (r : Rd) : Option (Lexeme × Rd) :=
  onNext r (fun c r1 =>
    if isExprPunct c = true then some (.plain (.ch c), r1)
    else if (c == c! '&') = true then some (isNext (c! '&') .and (.ch (c! '&')) r1)
    else if (c == c! '|') = true then some (isNext (c! '|') .or (.ch (c! '|')) r1)
    else if (c == c! '<') = true then some (isNext (c! '=') .le (.ch (c! '<')) r1)
    else if (c == c! '>') = true then some (isNext (c! '=') .ge (.ch (c! '>')) r1)
    else if (c == c! '=') = true then
      eqNext (isNext (c! '=') .eq (.ch (c! '=')) r1).1 (isNext (c! '=') .eq (.ch (c! '=')) r1).2
    else if (c == c! '!') = true then some (isNext (c! '=') .ne (.ch (c! '!')) r1)
    else if (c == c! '"' || c == c! '\'') = true then lexQuoted c r1
    else if isDigit c = true then some (number env true r)
    else if isLetter c = true then some (ident isAlphanumeric r)
    else some (tokenErr (some c) r1)) (some (.plain .eof, r))

theorem lexExpr_eq (env : Env) (r : Rd) : lexExpr env r = exprAt env r.ws := by
  unfold lexExpr exprAt onNext
  rcases hg : r.ws.get with ⟨_ | c, r1⟩
  · rw [(Rd.get_none hg).2]
  · simp only
    rw [lexNumber_eq hg, lexID_eq hg]
    rfl

theorem ll_lexExpr (hx : x ≠ []) (env : Env) {r r' : Rd} (h : RR x y N r r') : LL x y N r.pos (lexExpr env r) (lexExpr env r') := by
  obtain ⟨hw1, hw⟩ := rr_ws h
  rw [lexExpr_eq, lexExpr_eq]
  refine LL.le ?_ hw1
  generalize r.ws = r at hw ⊢
  generalize r'.ws = r' at hw ⊢
  have h1 := rl_get hw
  have h2 := h1.rd
  have le := h1.le
  refine ll_next hw (Nat.le_refl _) (fun c hc => ?_) (fun he => ⟨_, _, Nat.le_refl _, (hw.eof hx he).1, .of_rl (.same (r' := r') _ hw) .plain⟩)
  refine .ite (LL.le (.of_rl (.same _ h2) .plain) le) <| .ite ((isNext_ll _ _ _ h2).le le) <| .ite ((isNext_ll _ _ _ h2).le le) <|
    .ite ((isNext_ll _ _ _ h2).le le) <| .ite ((isNext_ll _ _ _ h2).le le) <| .ite (LL.le ?_ le) <| .ite ((isNext_ll _ _ _ h2).le le) <|
    .ite ((ll_lexQuoted hx c h2).le le) <| .ite (.of_rl (rl_number env true hw) (number_rep env true r _)) <|
    .ite (.of_rl (rl_ident _ hw) .none) <| LL.le (.of_rl (rl_tokenErr _ h2) (tokenErr_rep _ _)) le
  have h3 := rl_isNext (c! '=') .eq (.ch (c! '=')) h2
  refine LL.bind (f := eqNext) (f' := eqNext) h3 ?_
  unfold eqNext
  exact .ite (.of_rl (.same _ h3.rd) (isNext_rep _ _ _ _)) (isNext_ll _ _ _ h3.rd)

/-- `lexPath` from the first byte on. -/
def pathAt (env : Env) (r : Rd) : Option (Lexeme × Rd) :=
  onNext r (fun c r1 =>
    if isPathPunct c = true then some (.plain (.ch c), r1)
    else if (c == c! '.') = true then some (isNext (c! '.') .nest (.ch (c! '.')) r1)
    else if (c == c! '?') = true then some (isNext (c! '(') .filter .error r1)
    else if (c == c! '"' || c == c! '\'') = true then lexQuoted c r1
    else if (c == c! '-') = true then
      onNext r1.ws (fun d _ =>
        if isDigit d = true then
          negNext c (number env false r1.ws).1 (number env false r1.ws).2
        else some (tokenErr r1.ws.look r1.ws)) (some (tokenErr r1.ws.unget.look r1.ws.unget))
    else if isDigit c = true then some (number env false r)
    else if isLetter c = true then some (ident isAlphanumericDash r)
    else some (tokenErr (some c) r1)) (some (.plain .eof, r))

theorem lexPath_eq (env : Env) (r : Rd) : lexPath env r = pathAt env r.ws := by
  unfold lexPath pathAt onNext
  rcases hg : r.ws.get with ⟨_ | c, r1⟩
  · rw [(Rd.get_none hg).2]
  · simp only
    rw [lexNumber_eq hg, lexID_eq hg]
    rcases hd : r1.ws.get with ⟨_ | d, r2⟩
    · rw [(Rd.get_none hd).2]
      rfl
    · simp only [Option.any_some, Bool.not_eq_true']
      rw [lexNumber_eq hd, Rd.unget_get hd]
      by_cases h : isDigit d = true
      · simp only [h, Bool.true_eq_false, if_false, if_true]
        rfl
      · simp only [h, if_true, if_false, Bool.not_eq_true]
        rfl

theorem ll_here {r r' : Rd} (h : RR x y N r r') : LL x y N r.pos (some (tokenErr r.look r)) (some (tokenErr r'.look r')) := by
  have h1 := LL.of_rl (rl_tokenErr r.look h) (tokenErr_rep r.look r)
  rcases Nat.lt_or_ge r.pos N with hn | hn
  · rw [h.look hn]; exact h1
  · exact h1.swap hn

theorem ll_lexPath (hx : x ≠ []) (env : Env) {r r' : Rd} (h : RR x y N r r') : LL x y N r.pos (lexPath env r) (lexPath env r') := by
  obtain ⟨hw1, hw⟩ := rr_ws h
  rw [lexPath_eq, lexPath_eq]
  refine LL.le ?_ hw1
  generalize r.ws = r at hw ⊢
  generalize r'.ws = r' at hw ⊢
  have h1 := rl_get hw
  have h2 := h1.rd
  have le := h1.le
  refine ll_next hw (Nat.le_refl _) (fun c hc => ?_) (fun he => ⟨_, _, Nat.le_refl _, (hw.eof hx he).1, .of_rl (.same (r' := r') _ hw) .plain⟩)
  refine .ite (LL.le (.of_rl (.same _ h2) .plain) le) <| .ite ((isNext_ll _ _ _ h2).le le) <| .ite ((isNext_ll _ _ _ h2).le le) <|
    .ite ((ll_lexQuoted hx c h2).le le) <| .ite ?_ <| .ite (.of_rl (rl_number env false hw) (number_rep env false r _)) <|
    .ite (.of_rl (rl_ident _ hw) .none) <| LL.le (.of_rl (rl_tokenErr _ h2) (tokenErr_rep _ _)) le
  obtain ⟨hv1, hv⟩ := rr_ws h2
  have hp := Rd.get_pos hc
  refine ll_next hv (Nat.le_trans le hv1) (fun d hd => .ite ?_ (ll_here hv)) (fun he => ?_)
  · have h3 := rl_number env false hv
    refine LL.bind (f := negNext c) (f' := negNext c) h3 ?_
    unfold negNext
    refine .ite (.of_rl (rl_tokenErr _ h3.rd) (tokenErr_rep _ _)) ?_
    split
    · exact .ite (.of_rl (.same _ h3.rd) (.fail (by simp [LexErr.offsets]))) (.of_rl (.same _ h3.rd) (number_rep env false _ _))
    · exact ⟨trivial, fun _ _ h => by cases h⟩
  · obtain ⟨e1, e2, e3, e4⟩ := hv.eof hx he
    exact ⟨_, _, by omega, e2, ll_here (.far (r' := r') e3 e2)⟩

/-! ### Regular expressions -/

theorem lexRegexp_total (ec : UInt8) : ∀ (rest before acc : Bytes),
    before.length ≤ (lexRegexpGo ec before acc rest).2.pos ∧ (rest ≠ [] → before.length < (lexRegexpGo ec before acc rest).2.pos) ∧
    (lexRegexpGo ec before acc rest).2.pos + (lexRegexpGo ec before acc rest).2.rest.length = before.length + rest.length ∧
    (∀ e, (lexRegexpGo ec before acc rest).1.err = some e → e.offsets = [])
  | [], before, acc => by simp [lexRegexpGo, Rd.pos, LexErr.offsets]
  | [c], before, acc => by
    unfold lexRegexpGo
    split <;> simp [Rd.pos, LexErr.offsets]
  | c :: d :: ds, before, acc => by
    unfold lexRegexpGo
    split
    · simp [Rd.pos]; omega
    · split
      · obtain ⟨h1, h2, h3, h4⟩ := lexRegexp_total ec ds (d :: c :: before) (acc ++ [ec])
        simp only [List.length_cons] at h1 h2 h3 ⊢
        exact ⟨by omega, fun _ => by omega, by omega, h4⟩
      · obtain ⟨h1, h2, h3, h4⟩ := lexRegexp_total ec (d :: ds) (c :: before) (acc ++ [c])
        simp only [List.length_cons] at h1 h2 h3 ⊢
        exact ⟨by omega, fun _ => by omega, by omega, h4⟩

theorem lexRegexp_common (ec : UInt8) (x y : Bytes) : ∀ (c before acc : Bytes),
    (lexRegexpGo ec before acc (c ++ x)).2.pos < before.length + c.length →
    ∃ c1, (lexRegexpGo ec before acc (c ++ x)).2.rest = c1 ++ x ∧
      lexRegexpGo ec before acc (c ++ y) = ((lexRegexpGo ec before acc (c ++ x)).1, ⟨(lexRegexpGo ec before acc (c ++ x)).2.before, c1 ++ y⟩)
  | [], before, acc, h => by
    have := (lexRegexp_total ec x before acc).1
    simp only [List.nil_append, List.length_nil] at h
    omega
  | [c], before, acc, h => by
    have := (lexRegexp_total ec ([c] ++ x) before acc).2.1 (by simp)
    simp only [List.length_cons, List.length_nil] at h
    omega
  | c :: d :: ds, before, acc, h => by
    simp only [List.cons_append] at h ⊢
    unfold lexRegexpGo at h ⊢
    split
    · exact ⟨d :: ds, rfl, rfl⟩
    · next hc =>
      rw [if_neg hc] at h
      split
      · next hd =>
        rw [if_pos hd] at h
        simp only [List.length_cons] at h
        exact lexRegexp_common ec x y ds (d :: c :: before) _ (by simp only [List.length_cons]; omega)
      · next hd =>
        rw [if_neg hd] at h
        simp only [List.length_cons] at h
        exact lexRegexp_common ec x y (d :: ds) (c :: before) _ (by simp only [List.length_cons, List.cons_append]; omega)

theorem rl_lexRegexp (ec : UInt8) {r r' : Rd} (h : RR x y N r r') : RL x y N r (lexRegexp ec r) r' (lexRegexp ec r') := by
  unfold lexRegexp
  obtain ⟨h1, _, h2, _⟩ := lexRegexp_total ec r.rest r.before []
  rcases Nat.lt_or_ge (lexRegexpGo ec r.before [] r.rest).2.pos N with hn | hn
  · obtain ⟨h3, c, h4, h5⟩ := h.2 (by unfold Rd.pos at *; omega)
    have h6 := h.1
    rw [h4, List.length_append] at h6
    rw [h4] at hn h1 h2 ⊢
    rw [← h3, h5]
    obtain ⟨c1, h7, h8⟩ := lexRegexp_common ec x y c r.before [] (by unfold Rd.pos at *; omega)
    rw [h8]
    exact ⟨h1, ⟨_, c1 ++ y⟩, ⟨by rw [List.length_append] at h2; unfold Rd.pos at *; omega, fun _ => ⟨rfl, c1, h7, rfl⟩⟩, fun _ => rfl⟩
  · exact .far h1 (by have := h.1; unfold Rd.pos at *; omega) hn

end JP
