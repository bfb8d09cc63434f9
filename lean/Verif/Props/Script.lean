import Verif.Proof.Script
import Verif.Props.Ex
import Verif.Proof.KRfl
/-!
Script expressions on their own and in paths: C67.

`ParseScriptExpression` (`parseScriptExpression`, paths/parseexpr.go:13-25) reads an expression that is the whole text.  In a path
an expression stands between parentheses: as a filter, as a subscript, after a dot, or as a bound of a slice.
-/
namespace JP
open Spec

variable (env : Env)

/-! ### C67 An expression is the same alone and in a path -/

/-- The full statement: what is accepted as an expression is what is accepted as a filter, and it is the same tree. -/
def ScriptRule : Prop :=
  ∀ (s : Bytes) (e : Expr),
    parseScriptExpression env s = .ok e ↔ parsePath env (b! "$[?(" ++ (s ++ b! ")]")) = .ok [⟨.filter, [.expr e]⟩]

/-- It is false: a literal that ends with an escaped quote, and so is not closed, is accepted at the end of the text. -/
theorem C67_fails : ¬ ScriptRule env := by
  intro h
  have h1 : parseScriptExpression env (b! "'\\'") = .ok (.str (b! "'")) := by krfl
  have h2 := (h _ _).mp h1
  have h3 : (match parsePath env (b! "$[?(" ++ (b! "'\\'" ++ b! ")]")) with | .ok _ => true | _ => false) = false := by krfl
  rw [h2] at h3
  cases h3

/-- The text does not end with an escaped quote. -/
def Closed (s : Bytes) : Prop := ∀ (q : UInt8) (u : Bytes), q = c! '\'' ∨ q = c! '"' → s ≠ u ++ [c! '\\', q]

/-- What is accepted as a filter, a subscript or a member in parentheses is accepted as an expression. -/
theorem C67_alone (s : Bytes) (e : Expr)
    (h : parsePath env (b! "$[?(" ++ (s ++ b! ")]")) = .ok [⟨.filter, [.expr e]⟩] ∨
      parsePath env (b! "$[(" ++ (s ++ b! ")]")) = .ok [⟨.select, [.expr e]⟩] ∨
      parsePath env (b! "$.(" ++ (s ++ b! ")")) = .ok [⟨.member, [.expr e]⟩]) :
    parseScriptExpression env s = .ok e := by
  rcases h with h | h | h
  · obtain ⟨ts, hw, us, hg, rfl⟩ := parsePath_iff.mp h
    generalize hp : ([⟨.filter, [.expr e]⟩] : Path) = p at hg
    cases hg with
    | nil => cases hp
    | cons ts st vs q hst hq =>
      cases hp
      cases hq
      generalize hs : (⟨.filter, [.expr e]⟩ : Step) = st at hst
      cases hst with
      | member ts m hm => cases m <;> cases hs
      | nestMember ts m hm => cases m <;> cases hs
      | nestSub ts k hk => cases k <;> cases hs
      | sub ts k hk =>
        cases hk with
        | filter ts e' hpar =>
          cases hs
          obtain ⟨us, h1, rfl⟩ := hpar
          have h2 := written_p (by decide) (written_p (by decide) hw)
          have h3 := (Spec.Written.path_inv (g := []) (w := b! "?(") (next := s ++ b! ")]") h2 White.nil (.filter _)).2
          exact parseScript_written (written_close (by simpa using h3)) h1
        | _ => cases hs
  · obtain ⟨ts, hw, us, hg, rfl⟩ := parsePath_iff.mp h
    generalize hp : ([⟨.select, [.expr e]⟩] : Path) = p at hg
    cases hg with
    | nil => cases hp
    | cons ts st vs q hst hq =>
      cases hp
      cases hq
      generalize hs : (⟨.select, [.expr e]⟩ : Step) = st at hst
      cases hst with
      | member ts m hm => cases m <;> cases hs
      | nestMember ts m hm => cases m <;> cases hs
      | nestSub ts k hk => cases k <;> cases hs
      | sub ts k hk =>
        cases hk with
        | expr ts e' hpar =>
          cases hs
          obtain ⟨us, h1, rfl⟩ := hpar
          have h2 := written_p (by decide) (written_p (by decide) (written_p (by decide) hw))
          exact parseScript_written (written_close (by simpa using h2)) h1
        | one ts v hv => cases hv <;> cases hs
        | _ => cases hs
  · obtain ⟨ts, hw, us, hg, rfl⟩ := parsePath_iff.mp h
    generalize hp : ([⟨.member, [.expr e]⟩] : Path) = p at hg
    cases hg with
    | nil => cases hp
    | cons ts st vs q hst hq =>
      cases hp
      cases hq
      generalize hs : (⟨.member, [.expr e]⟩ : Step) = st at hst
      cases hst with
      | sub ts k hk => cases k <;> cases hs
      | nestMember ts m hm => cases m <;> cases hs
      | nestSub ts k hk => cases k <;> cases hs
      | member ts m hm =>
        cases hm with
        | expr ts e' hpar =>
          cases hs
          obtain ⟨us, h1, rfl⟩ := hpar
          have h2 := written_p (by decide) hw
          have h3 := (Spec.Written.path_inv (g := []) (w := b! ".") (next := b! "(" ++ (s ++ b! ")")) h2 White.nil
            (.dot _ (by simp [Spec.Stops]))).2
          have h4 := written_p (by decide) h3
          exact parseScript_written (written_close1 (by simpa using h4)) h1
        | _ => cases hs

example := C67_alone Ex.env (b! "@.a == 1") _ (.inr (.inl rfl))

/-- What is accepted as an expression is accepted, with the same tree, after any path: as a filter, a subscript or a member, also
after two dots, and as any bound of a slice.  The exception is what `C67_fails` shows. -/
theorem C67_placed_partial (s : Bytes) (e : Expr) (h : parseScriptExpression env s = .ok e) (hs : Closed s)
    (pre : Bytes) (p : Path) (hp : parsePath env pre = .ok p) :
    parsePath env (pre ++ (b! "[?(" ++ (s ++ b! ")]"))) = .ok (p ++ [⟨.filter, [.expr e]⟩]) ∧
    parsePath env (pre ++ (b! "..[?(" ++ (s ++ b! ")]"))) = .ok (p ++ [⟨.nestFilter, [.expr e]⟩]) ∧
    parsePath env (pre ++ (b! "[(" ++ (s ++ b! ")]"))) = .ok (p ++ [⟨.select, [.expr e]⟩]) ∧
    parsePath env (pre ++ (b! "..[(" ++ (s ++ b! ")]"))) = .ok (p ++ [⟨.nestSelect, [.expr e]⟩]) ∧
    parsePath env (pre ++ (b! ".(" ++ (s ++ b! ")"))) = .ok (p ++ [⟨.member, [.expr e]⟩]) ∧
    parsePath env (pre ++ (b! "..(" ++ (s ++ b! ")"))) = .ok (p ++ [⟨.nestMember, [.expr e]⟩]) ∧
    parsePath env (pre ++ (b! "[(" ++ (s ++ b! "):]"))) = .ok (p ++ [⟨.select, [.slice ⟨some (.expr e), none, none⟩]⟩]) ∧
    parsePath env (pre ++ (b! "[:(" ++ (s ++ b! ")]"))) = .ok (p ++ [⟨.select, [.slice ⟨none, some (.expr e), none⟩]⟩]) ∧
    parsePath env (pre ++ (b! "[::(" ++ (s ++ b! ")]"))) = .ok (p ++ [⟨.select, [.slice ⟨none, none, some (.expr e)⟩]⟩]) := by
  obtain ⟨ts, w, g⟩ := script_written h hs
  obtain ⟨ts0, w0, g0⟩ := parsePath_iff.mp hp
  have hlast := g0.lastTok
  obtain ⟨us, gs, rfl⟩ := g0
  have gp : GParen env.reValid (ts ++ [.x (c! ')')]) e := ⟨ts, g, rfl⟩
  have wb : Written env.parseFloat [.p (c! ']')] (b! "]") := .punctP (by decide) (.nil _ White.nil)
  have wp := written_paren w wb
  have wm := written_paren w (.nil [] White.nil)
  have wf : Written env.parseFloat (.path (.plain .filter) :: (ts ++ [.x (c! ')'), .p (c! ']')])) (b! "?(" ++ (s ++ b! ")]")) :=
    .cons _ _ [] (b! "?(") _ White.nil (.path _ _ _ (.filter _)) wp
  have wf := wf.punctP (c := c! '[') (by decide)
  have wx : Written env.parseFloat (.p (c! '(') :: (ts ++ [.x (c! ')'), .p (c! ']')])) (b! "(" ++ (s ++ b! ")]")) := .punctP (by decide) wp
  have ws := wx.punctP (c := c! '[') (by decide)
  have wx' : Written env.parseFloat (.p (c! '(') :: (ts ++ [.x (c! ')')])) (b! "(" ++ (s ++ b! ")")) := .punctP (by decide) wm
  have nest : ∀ {vs x}, Written env.parseFloat vs x → Written env.parseFloat (.path (.plain .nest) :: vs) (c! '.' :: c! '.' :: x) :=
    fun h => .cons _ _ [] (b! "..") _ White.nil (.path _ _ _ (.nest _)) h
  have wd : Written env.parseFloat (.p (c! '.') :: .p (c! '(') :: (ts ++ [.x (c! ')')])) (c! '.' :: (b! "(" ++ (s ++ b! ")"))) :=
    .cons _ _ [] (b! ".") _ White.nil (.path _ _ _ (.dot _ (by simp [Spec.Stops]))) wx'
  have w1 := (written_paren w (wb.punctP (c := c! ':') (by decide))).punctP (c := c! '(') (by decide) |>.punctP (c := c! '[') (by decide)
  have w2 := wx.punctP (c := c! ':') (by decide) |>.punctP (c := c! '[') (by decide)
  have w3 := wx.punctP (c := c! ':') (by decide) |>.punctP (c := c! ':') (by decide) |>.punctP (c := c! '[') (by decide)
  have brk : ∀ {vs st x}, Written env.parseFloat (.p (c! '[') :: vs) (c! '[' :: x) → GStep env.reValid (.p (c! '[') :: vs) st →
      parsePath env (pre ++ c! '[' :: x) = .ok (p ++ [st]) := by
    intro vs st x h1 h2
    exact parsePath_iff.mpr ⟨_, w0.join h1 (neutral_of (by decide)) (outside_path _ _), _,
      GSteps_append gs (.cons _ _ _ _ h2 .nil), by simp⟩
  have dot : ∀ {lx vs st x}, Written env.parseFloat (.path lx :: vs) (c! '.' :: x) → GStep env.reValid (.path lx :: vs) st →
      parsePath env (pre ++ c! '.' :: x) = .ok (p ++ [st]) := by
    intro lx vs st x h1 h2
    exact parsePath_iff.mpr ⟨_, w0.join_dot h1 (outside_path _ _) hlast, _, GSteps_append gs (.cons _ _ _ _ h2 .nil), by simp⟩
  have e1 : ∀ ys : List Token, ts ++ .x (c! ')') :: ys = (ts ++ [.x (c! ')')]) ++ ys := by simp
  refine ⟨brk wf ?_, dot (nest wf) ?_, brk ws ?_, dot (nest ws) ?_, dot wd ?_, dot (nest wx') ?_, brk w1 ?_, brk w2 ?_, brk w3 ?_⟩
  · rw [e1]; exact .sub (.path (.plain .filter) :: (ts ++ [.x (c! ')')])) (.filter e) (.filter _ e gp)
  · rw [e1]; exact .nestSub (.path (.plain .filter) :: (ts ++ [.x (c! ')')])) (.filter e) (.filter _ e gp)
  · rw [e1]; exact .sub (.p (c! '(') :: (ts ++ [.x (c! ')')])) (.key (.expr e)) (.expr _ e gp)
  · rw [e1]; exact .nestSub (.p (c! '(') :: (ts ++ [.x (c! ')')])) (.key (.expr e)) (.expr _ e gp)
  · exact .member _ (some (.expr e)) (.expr _ e gp)
  · exact .nestMember _ (some (.expr e)) (.expr _ e gp)
  · have := GSlice.two (.p (c! '(') :: (ts ++ [.x (c! ')')])) (some (.expr e)) [] none (.some _ _ (.expr _ e gp)) .none
    have := GStep.sub _ _ (.one _ _ (.slice _ _ this))
    simpa [StepKind.step] using this
  · have := GSlice.two [] none (.p (c! '(') :: (ts ++ [.x (c! ')')])) (some (.expr e)) .none (.some _ _ (.expr _ e gp))
    have := GStep.sub _ _ (.one _ _ (.slice _ _ this))
    simpa [StepKind.step] using this
  · have := GSlice.three [] none [] none (.p (c! '(') :: (ts ++ [.x (c! ')')])) (some (.expr e)) .none .none (.some _ _ (.expr _ e gp))
    have := GStep.sub _ _ (.one _ _ (.slice _ _ this))
    simpa [StepKind.step] using this

/-- A text that does not end with a quote. -/
private theorem ex_closed (s : Bytes) (c : UInt8) (hc : c ≠ c! '\'' ∧ c ≠ c! '"') : Closed (s ++ [c]) := by
  intro q u hq h
  have := congrArg List.getLast? h
  simp at this
  rcases hq with rfl | rfl
  · exact hc.1 this
  · exact hc.2 this

example := C67_placed_partial Ex.env (b! "@.a + 1") _ rfl (ex_closed (b! "@.a + ") _ (by decide)) (b! "$.b") _ rfl

/-- So the two agree on every text that does not end with an escaped quote. -/
theorem C67_same_partial (s : Bytes) (hs : Closed s) (e : Expr) :
    parseScriptExpression env s = .ok e ↔ parsePath env (b! "$[?(" ++ (s ++ b! ")]")) = .ok [⟨.filter, [.expr e]⟩] :=
  ⟨fun h => (C67_placed_partial env s e h hs (b! "$") [] rfl).1, fun h => C67_alone env s e (.inl h)⟩

example := (C67_same_partial Ex.env (b! "@.a + 1") (ex_closed (b! "@.a + ") _ (by decide)) _).mp rfl

/-- Parentheses around an expression change nothing. -/
theorem C67_parentheses_partial (s : Bytes) (hs : Closed s) (e : Expr) (h : parseScriptExpression env s = .ok e) :
    parseScriptExpression env (b! "(" ++ (s ++ b! ")")) = .ok e := by
  obtain ⟨ts, w, g⟩ := script_written h hs
  exact parseScript_written (.punctX (by decide) (written_paren w (.nil [] White.nil))) (gatom_expr (.paren _ _ g))

example := C67_parentheses_partial Ex.env (b! "@.a + 1") (ex_closed (b! "@.a + ") _ (by decide)) _ rfl

end JP
