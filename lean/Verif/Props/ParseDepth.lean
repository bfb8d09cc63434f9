import Verif.Proof.ParseDepth
import Verif.Proof.Written
import Verif.Proof.KRfl
import Verif.Props.Ex
/-!
C100: the stack that the parser of expressions takes.
-/
namespace JP
open Spec

variable (env : Env)

/-- With a stack of any size the parser gives the result of `ParseScriptExpression`, or comes to the end of the stack. -/
theorem C100_same (d : Nat) (text : Bytes) :
    dScriptExpression env d text = parseScriptExpression env text ∨ dScriptExpression env d text = .panic "stack overflow" := by
  have key : Cut (dScriptExpr env d.pred) (parseScriptExpr env) := fun s =>
    Cut.frame (d := d.pred) (k := fun d => dExpr env (exprFuel s) d 0) (fun e => dExpr_cut _ e 0) s
  cases d with
  | zero => exact .inr rfl
  | succ d =>
    unfold dScriptExpression parseScriptExpression frame
    dsimp only
    rcases Cut.bind key (fun e => Cut.refl (x := do
        let lx ← lexExprP env
        let off ← P.offset
        if lx.tok ≠ .eof then P.fail (.missingOperator off lx.tok) else pure e)) ⟨⟨[], text⟩, none⟩ with h | h
    · rw [show d = (d + 1).pred from rfl, h]; exact .inl rfl
    · rw [show d = (d + 1).pred from rfl, h]; exact .inr rfl

/-- Eleven calls for every bracket and sign of the text, and eleven more, are enough.  No number of calls is enough for all texts
(`C100_fails`), so the property that there is one holds for the texts with a limited number of brackets and signs only. -/
theorem C100_enough_partial (d : Nat) (text : Bytes) (h : 11 * openers text + 11 ≤ d) :
    dScriptExpression env d text = parseScriptExpression env text := by
  obtain ⟨d, rfl⟩ : ∃ e, d = e + 2 := ⟨d - 2, by omega⟩
  have key := (dExpr_matches (env := env) (exprFuel ⟨⟨[], text⟩, none⟩) d 0 ⟨⟨[], text⟩, none⟩ (by omega) (by
    show 11 * (openers text + 0) + 9 ≤ d + 0
    omega)).1
  unfold dScriptExpression parseScriptExpression
  have : (frame (d + 2) fun d => do
      let e ← dScriptExpr env d
      let lx ← lexExprP env
      let off ← P.offset
      if lx.tok ≠ .eof then P.fail (.missingOperator off lx.tok) else pure e : P Expr) ⟨⟨[], text⟩, none⟩ =
    (do
      let e ← parseScriptExpr env
      let lx ← lexExprP env
      let off ← P.offset
      if lx.tok ≠ .eof then P.fail (.missingOperator off lx.tok) else pure e : P Expr) ⟨⟨[], text⟩, none⟩ := by
    show P.bind _ _ _ = P.bind _ _ _
    unfold P.bind
    rw [show dScriptExpr env (d + 1) ⟨⟨[], text⟩, none⟩ = parseScriptExpr env ⟨⟨[], text⟩, none⟩ from key]
  dsimp only
  rw [this]
  rfl

/-- The same for an expression in a path, whose parser calls `parseScriptExpr` at some place of the text. -/
theorem C100_place_partial (d : Nat) (r : Rd) (h : 11 * openers r.rest + 10 ≤ d) :
    dScriptExpr env d ⟨r, none⟩ = parseScriptExpr env ⟨r, none⟩ := by
  obtain ⟨d, rfl⟩ : ∃ e, d = e + 1 := ⟨d - 1, by omega⟩
  exact (dExpr_matches (env := env) (exprFuel ⟨r, none⟩) d 0 ⟨r, none⟩ (by omega) (by
    show 11 * (openers r.rest + 0) + 9 ≤ d + 0
    omega)).1

/-- One call fewer is not enough: for every number of brackets there is a text. -/
theorem C100_sharp (n : Nat) : ∃ text, openers text = n ∧
    ∀ d, d ≤ 11 * n + 10 → dScriptExpression env d text = .panic "stack overflow" := by
  refine ⟨c! '1' :: nestedTail n, ?_, fun d hd => ?_⟩
  · have := openers_append [c! '1'] (nestedTail n)
    rw [nestedTail_openers] at this
    rw [show c! '1' :: nestedTail n = [c! '1'] ++ nestedTail n from rfl, this]
    show 0 + n = n
    omega
  · match d with
    | 0 => rfl
    | 1 => rfl
    | d + 2 =>
      have := dExpr_nested (env := env) n (exprFuel ⟨⟨[], c! '1' :: nestedTail n⟩, none⟩) d [] _ (by
        simp only [exprFuel, List.length_cons, nestedTail_length]; omega) (by omega) (.inl rfl)
      unfold dScriptExpression frame
      dsimp only
      rw [bind_panic (show dScriptExpr env (d + 1) _ = _ from this)]

/-- The number 1 in parentheses is an expression for 1. -/
theorem C100_parens (n : Nat) : parseScriptExpression env (parens n) = .ok (.int 1) := by
  have w1 : ∀ n, Written env.parseFloat (List.replicate n (.x (c! ')'))) (List.replicate n (c! ')')) := by
    intro n
    induction n with
    | zero => exact .nil _ (by simp [White, All])
    | succ n ih => exact .cons _ _ [] [c! ')'] _ (by simp [Gap, White, All]) (.expr _ _ _ (.punct _ _ (by simp))) ih
  have w2 : Written env.parseFloat (.expr (intTok 1) :: List.replicate n (.x (c! ')'))) (c! '1' :: List.replicate n (c! ')')) := by
    refine .cons _ _ [] [c! '1'] _ (by simp [Gap, White, All]) (.expr _ _ _ ?_) (w1 n)
    refine .int [c! '1'] _ ⟨by simp, by simp [All, Digit]⟩ ?_ (by decide)
    cases n with
    | zero => intro c h; cases h
    | succ n => intro c h; cases h; simp [Digit]
  have w3 : ∀ m, Written env.parseFloat (List.replicate m (.x (c! '(')) ++ (.expr (intTok 1) :: List.replicate n (.x (c! ')'))))
      (List.replicate m (c! '(') ++ (c! '1' :: List.replicate n (c! ')'))) := by
    intro m
    induction m with
    | zero => exact w2
    | succ m ih => exact .cons _ _ [] [c! '('] _ (by simp [Gap, White, All]) (.expr _ _ _ (.punct _ _ (by simp))) ih
  have g : ∀ n, GAtom env.reValid (List.replicate n (.x (c! '(')) ++ (.expr (intTok 1) :: List.replicate n (.x (c! ')')))) (.int 1) := by
    intro n
    induction n with
    | zero => exact .int 1
    | succ n ih =>
      have := GAtom.paren _ _ (.unary 0 _ _ (.primary _ _ (.atom _ _ ih)))
      rw [List.append_assoc, List.cons_append, ← List.replicate_succ'] at this
      exact this
  exact parseScript_written (w3 n) (.unary 0 _ _ (.primary _ _ (.atom _ _ (g n))))

/-- No stack is large enough for all expressions. -/
theorem C100_fails : ¬ ∃ d, ∀ text, dScriptExpression env d text = parseScriptExpression env text := by
  rintro ⟨d, h⟩
  have h1 := h (parens d)
  rw [C100_parens] at h1
  match d, h1 with
  | 0, h1 => cases h1
  | 1, h1 => cases h1
  | d + 2, h1 =>
    have := dExpr_parens (env := env) (d + 2) (exprFuel ⟨⟨[], parens (d + 2)⟩, none⟩) d 0 [] (c! '1' :: List.replicate (d + 2) (c! ')')) (by
      simp only [exprFuel, parens, List.length_append, List.length_cons, List.length_replicate]; omega) (by omega)
    unfold dScriptExpression frame at h1
    dsimp only at h1
    rw [bind_panic (show dScriptExpr env (d + 1) ⟨⟨[], parens (d + 2)⟩, none⟩ = _ from this)] at h1
    cases h1

/-! ### The hypotheses can be met -/

example : dScriptExpression Ex.env 22 (b! "@.a + (2)") = parseScriptExpression Ex.env (b! "@.a + (2)") :=
  C100_enough_partial Ex.env 22 _ (by decide)
example : dScriptExpression Ex.env 11 (b! "1||1&&1==1<1+1*1") = parseScriptExpression Ex.env (b! "1||1&&1==1<1+1*1") :=
  C100_enough_partial Ex.env 11 _ (by decide)
example : dScriptExpression Ex.env 10 (b! "1||1&&1==1<1+1*1") = .panic "stack overflow" := by krfl
example : dScriptExpr Ex.env 21 ⟨⟨b! "(?[$", b! "(1) > 0)]"⟩, none⟩ = parseScriptExpr Ex.env ⟨⟨b! "(?[$", b! "(1) > 0)]"⟩, none⟩ :=
  C100_place_partial Ex.env 21 _ (by decide)

end JP
