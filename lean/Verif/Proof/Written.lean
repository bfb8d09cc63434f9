import Verif.Proof.Tokens
import Verif.Proof.PathSound
import Verif.Proof.PathComplete
/-!
The tokens the scanners read are those of which the text is made.
-/
namespace JP
open Spec

variable {env : Env}

theorem Spec.PathWord.ok {lx : Lexeme} {w next : Bytes} (h : PathWord lx w next) : lx.err = none ∧ lx.tok ≠ .eof := by
  cases h <;> simp [Lexeme.plain]

theorem Spec.ExprWord.ok {pf : Bytes → Option F64} {lx : Lexeme} {w next : Bytes} (h : ExprWord pf lx w next) :
    lx.err = none ∧ lx.tok ≠ .eof := by
  cases h <;> simp [Lexeme.plain]

theorem Spec.Word.reads {t : Token} {w next : Bytes} (h : Word env.parseFloat t w next) {g : Bytes} (hg : Gap t g) (b : Bytes) :
    Reads env t ⟨b, g ++ (w ++ next)⟩ ⟨(g ++ w).reverse ++ b, next⟩ := by
  cases h with
  | path lx w next h => exact .path (lexPath_of h hg b) h.ok.1 h.ok.2
  | expr lx w next h => exact .expr (lexExpr_of h hg b) h.ok.1 h.ok.2
  | regexp t v next h =>
    have hg : g = [] := hg
    subst hg
    refine .regexp ?_
    unfold lexRegexp
    have := lexRegexp_of h b [] next
    simpa using this

theorem Spec.Written.lexes {ts : List Token} {text : Bytes} (h : Written env.parseFloat ts text) : ∀ b,
    ∃ r, Lexes env ⟨b, text⟩ ts r ∧ White r.rest := by
  induction h with
  | nil g hg => intro b; exact ⟨_, .nil, hg⟩
  | cons t ts g w next hg hw _ ih =>
    intro b
    obtain ⟨r, h1, h2⟩ := ih ((g ++ w).reverse ++ b)
    exact ⟨r, .cons (hw.reads hg b) h1, h2⟩

/-- A token depends only on the byte after it. -/
theorem Spec.Stops.congr {p : UInt8 → Prop} {next next' : Bytes} (h : Stops p next) (e : next'.head? = next.head?) : Stops p next' := by
  intro c hc; exact h c (e ▸ hc)

theorem Spec.PathWord.congr {lx : Lexeme} {w next next' : Bytes} (h : PathWord lx w next) (e : next'.head? = next.head?) :
    PathWord lx w next' := by
  cases h with
  | punct c _ h => exact .punct c _ h
  | dot _ h => exact .dot _ (h.congr e)
  | nest => exact .nest _
  | filter => exact .filter _
  | str w v _ h => exact .str w v _ h
  | int _ _ h1 h2 h3 => exact .int _ _ h1 (h2.congr e) h3
  | neg w ds _ h1 h2 h3 h4 => exact .neg w ds _ h1 h2 (h3.congr e) h4
  | name c w _ h1 h2 h3 => exact .name c w _ h1 h2 (h3.congr e)

theorem Spec.ExprWord.congr {pf : Bytes → Option F64} {lx : Lexeme} {w next next' : Bytes} (h : ExprWord pf lx w next)
    (e : next'.head? = next.head?) : ExprWord pf lx w next' := by
  cases h with
  | punct c _ h => exact .punct c _ h
  | alone c d _ h1 h2 => exact .alone c d _ h1 (h2.congr e)
  | str w v _ h => exact .str w v _ h
  | int _ _ h1 h2 h3 => exact .int _ _ h1 (h2.congr e) h3
  | real _ f _ h1 h2 =>
    refine .real _ f _ ?_ h2
    cases h1 with
    | mk ds fs ex _ a1 a2 a3 a4 a5 => exact .mk ds fs ex _ a1 a2 a3 (a4.congr e) (fun h => (a5 h).congr e)
  | name c w _ h1 h2 h3 => exact .name c w _ h1 h2 (h3.congr e)
  | _ => constructor

theorem Spec.Word.congr {pf : Bytes → Option F64} {t : Token} {w next next' : Bytes} (h : Word pf t w next)
    (e : next'.head? = next.head?) : Word pf t w next' := by
  cases h with
  | path lx w _ h => exact .path lx w _ (h.congr e)
  | expr lx w _ h => exact .expr lx w _ (h.congr e)
  | regexp t v _ h => exact .regexp t v _ h

/-- A token that holds a string. -/
def StrTok (t : Token) : Prop := ∃ v, t = .path (strTok v) ∨ t = .expr (strTok v)

/-- What was read to make a token. -/
theorem Reads.word {t : Token} {b text : Bytes} {r : Rd} (h : Reads env t ⟨b, text⟩ r) :
    ∃ g w, Gap t g ∧ text = g ++ (w ++ r.rest) ∧
      (Word env.parseFloat t w r.rest ∨
        (r.rest = [] ∧ StrTok t ∧ ∃ q u, Quote q ∧ w = u ++ [c! '\\', q] ∧ Word env.parseFloat t (w ++ [q]) [])) := by
  cases h with
  | path h he ht =>
    obtain ⟨g, w, hg, e, _, h⟩ := lexPath_inv h he ht
    refine ⟨g, w, hg, e, ?_⟩
    rcases h with h | ⟨h1, v, rfl, q, u, hq, rfl, h2⟩
    · exact .inl (.path _ _ _ h)
    · exact .inr ⟨h1, ⟨v, .inl rfl⟩, q, q :: u, hq, by simp, .path _ _ _ (.str _ v _ h2)⟩
  | expr h he ht =>
    obtain ⟨g, w, hg, e, _, h⟩ := lexExpr_inv h he ht
    refine ⟨g, w, hg, e, ?_⟩
    rcases h with h | ⟨h1, v, rfl, q, u, hq, rfl, h2⟩
    · exact .inl (.expr _ _ _ h)
    · exact .inr ⟨h1, ⟨v, .inr rfl⟩, q, q :: u, hq, by simp, .expr _ _ _ (.str _ v _ h2)⟩
  | regexp h =>
    obtain ⟨t, v, h1, h2, h3, h4⟩ := lexRegexp_inv h
    simp at h2
    subst h2
    exact ⟨[], t ++ b! "/", rfl, by simpa using h3, .inl (.regexp _ _ _ h1)⟩

theorem Spec.White.nil : White [] := by intro c hc; cases hc

theorem Reads.not_end {t : Token} {b : Bytes} {r : Rd} (h : Reads env t ⟨b, []⟩ r) : False := by
  cases h with
  | path h he ht =>
    obtain ⟨r', h'⟩ := lexPath_eof.mpr White.nil
    rw [h'] at h; cases h; exact ht rfl
  | expr h he ht =>
    obtain ⟨r', h'⟩ := lexExpr_eof.mpr White.nil
    rw [h'] at h; cases h; exact ht rfl
  | regexp h => simp [lexRegexp, lexRegexpGo] at h

/-- The tokens that were read make up the text, except that a literal at its end may lack its quote. -/
theorem Lexes.written {ts : List Token} : ∀ {b text : Bytes} {r : Rd}, Lexes env ⟨b, text⟩ ts r → White r.rest →
    Written env.parseFloat ts text ∨
      ((∃ us t, ts = us ++ [t] ∧ StrTok t) ∧
        ∃ q u, Quote q ∧ text = u ++ [c! '\\', q] ∧ Written env.parseFloat ts (text ++ [q])) := by
  induction ts with
  | nil => intro b text r h hw; cases h; exact .inl (.nil _ hw)
  | cons t ts ih =>
    intro b text r h hw
    cases h with
    | @cons _ _ _ r1 _ h1 h2 =>
      obtain ⟨g, w, hg, rfl, h3⟩ := h1.word
      rcases h3 with h3 | ⟨h3, h4, q, u, hq, rfl, h5⟩
      · rcases ih h2 hw with h4 | ⟨⟨us, t', rfl, h4⟩, q, u, hq, h5, h6⟩
        · exact .inl (.cons _ _ _ _ _ hg h3 h4)
        · refine .inr ⟨⟨t :: us, t', by simp, h4⟩, q, g ++ (w ++ u), hq, by simp [h5], ?_⟩
          rw [List.append_assoc, List.append_assoc]
          refine .cons _ _ _ _ _ hg (h3.congr ?_) h6
          rw [h5]; cases u <;> simp
      · obtain ⟨rb, rr⟩ := r1
        simp only at h3
        subst h3
        cases h2 with
        | nil =>
          refine .inr ⟨⟨[], t, rfl, h4⟩, q, g ++ u, hq, by simp, ?_⟩
          have := Written.cons t [] g _ _ hg h5 (.nil _ White.nil)
          simpa using this
        | cons h6 => exact h6.not_end.elim

theorem gexpr_paren_last {ts : List Token} {valid : Bytes → Bool} {e : Expr} (h : GParen valid ts e) : ∃ us, ts = us ++ [.x (c! ')')] := by
  obtain ⟨us, _, rfl⟩ := h
  exact ⟨us, rfl⟩

theorem notStr_plain {t : Tok} : ¬ StrTok (.path (.plain t)) := by rintro ⟨v, h | h⟩ <;> simp [Lexeme.plain] at h
theorem notStr_x {c : UInt8} : ¬ StrTok (.x c) := by rintro ⟨v, h | h⟩ <;> simp [Lexeme.plain] at h

/-- No path ends with a string. -/
theorem Spec.GPath.last {valid : Bytes → Bool} {ts : List Token} {p : Path} (h : GPath valid ts p) :
    ∃ us t, ts = us ++ [t] ∧ ¬ StrTok t := by
  have one : ∀ {ts s}, GStep valid ts s → ∃ us t, ts = us ++ [t] ∧ ¬ StrTok t := by
    have mem : ∀ {ts m}, GMember valid ts m → ∃ us t, ts = us ++ [t] ∧ ¬ StrTok t := by
      intro ts m h
      cases h with
      | wild => exact ⟨[], _, rfl, notStr_plain⟩
      | name s => exact ⟨[], _, rfl, by rintro ⟨v, h | h⟩ <;> simp at h⟩
      | int n => exact ⟨[], _, rfl, by rintro ⟨v, h | h⟩ <;> simp at h⟩
      | expr ts e h =>
        obtain ⟨us, rfl⟩ := gexpr_paren_last h
        exact ⟨_ :: us, _, rfl, notStr_x⟩
    intro ts s h
    cases h with
    | member ts m h => obtain ⟨us, t, rfl, h'⟩ := mem h; exact ⟨_ :: us, t, rfl, h'⟩
    | nestMember ts m h => obtain ⟨us, t, rfl, h'⟩ := mem h; exact ⟨_ :: us, t, rfl, h'⟩
    | sub ts k h => exact ⟨_ :: ts, _, rfl, notStr_plain⟩
    | nestSub ts k h => exact ⟨_ :: _ :: ts, _, rfl, notStr_plain⟩
  have all : ∀ {ts p}, GSteps valid ts p → ts = [] ∨ ∃ us t, ts = us ++ [t] ∧ ¬ StrTok t := by
    intro ts p h
    induction h with
    | nil => exact .inl rfl
    | cons ts s us p h1 _ ih =>
      right
      rcases ih with rfl | ⟨vs, t, rfl, ht⟩
      · simpa using one h1
      · exact ⟨ts ++ vs, t, by simp, ht⟩
  obtain ⟨us, h, rfl⟩ := h
  rcases all h with rfl | ⟨vs, t, rfl, ht⟩
  · exact ⟨[], _, rfl, notStr_plain⟩
  · exact ⟨_ :: vs, t, rfl, ht⟩

/-- The paths are the texts made of tokens in the order of the grammar. -/
theorem parsePath_iff {text : Bytes} {p : Path} :
    parsePath env text = .ok p ↔ ∃ ts, Written env.parseFloat ts text ∧ GPath env.reValid ts p := by
  constructor
  · intro h
    obtain ⟨ts, r1, r2, h1, h2, h3⟩ := parsePath_sound h
    refine ⟨ts, ?_, h2⟩
    rcases h1.written (lexPath_eof.mp ⟨_, h3⟩) with h4 | ⟨⟨us, t, e, h4⟩, _⟩
    · exact h4
    · obtain ⟨us', t', e', h5⟩ := h2.last
      obtain ⟨_, e⟩ := List.append_inj' (e.symm.trans e') rfl
      cases e
      exact absurd h4 h5
  · rintro ⟨ts, h1, h2⟩
    obtain ⟨r, h3, h4⟩ := h1.lexes []
    obtain ⟨r2, h5⟩ := lexPath_eof (env := env) (b := r.before) |>.mpr h4
    exact parsePath_complete h3 h2 h5

theorem parseScript_written {text : Bytes} {e : Expr} {ts : List Token} (h1 : Written env.parseFloat ts text)
    (h2 : GExpr env.reValid 0 ts e) : parseScriptExpression env text = .ok e := by
  obtain ⟨r, h3, h4⟩ := h1.lexes []
  obtain ⟨r2, h5⟩ := lexExpr_eof (env := env) (b := r.before) |>.mpr h4
  exact parseScript_complete h3 h2 h5

/-- Expressions likewise, except for a literal at the end of the text. -/
theorem parseScript_inv {text : Bytes} {e : Expr} (h : parseScriptExpression env text = .ok e) :
    ∃ ts, GExpr env.reValid 0 ts e ∧ (Written env.parseFloat ts text ∨
      ((∃ us t, ts = us ++ [t] ∧ StrTok t) ∧
        ∃ q u, Quote q ∧ text = u ++ [c! '\\', q] ∧ Written env.parseFloat ts (text ++ [q]))) := by
  obtain ⟨ts, r1, r2, h1, h2, h3⟩ := parseScript_sound h
  exact ⟨ts, h2, h1.written (lexExpr_eof.mp ⟨_, h3⟩)⟩

end JP
