import Verif.Proof.CodeDepth
import Verif.Proof.PathSize
import Verif.Props.ParseDepth
/-!
C101: the stack that the compiler of paths takes.
-/
namespace JP
open Spec

variable (env : Env)

/-- With a stack of any size the compiler gives the usual program, or comes to the end of the stack. -/
theorem C101_same (d : Nat) (p : Path) : cCompile d p = compile p ∨ cCompile d p = .panic "stack overflow" :=
  CutB.frame (fun e => cPath_cut p e) ⟨[], []⟩

/-- Five calls, and one for every node from the top of the highest expression to a leaf, are enough. -/
theorem C101_enough_partial (d n : Nat) (p : Path) (h : Low n p) (hd : n + 5 ≤ d) : cCompile d p = compile p := by
  unfold cCompile compile
  rw [bframe_enough (by omega) fun e he => cPath_enough p e n (by omega) h]

/-- A number of calls in proportion to the length of the text is enough. -/
theorem C101_text_partial (d : Nat) (text : Bytes) (p : Path) (h : parsePath env text = .ok p) (hd : 4 * text.length + 11 ≤ 3 * d) :
    cCompile d p = compile p := by
  have := parsePath_size h
  exact C101_enough_partial d p.size p (low_size p) (by omega)

/-- The parser of expressions needs 11 calls for a sum of any length, and the text stands for a tree that is as high as the sum is long. -/
theorem C101_parser (n : Nat) : dScriptExpression env 11 (sumText n) = .ok (sum n) ∧ exprHeight (sum n) = n + 1 := by
  refine ⟨?_, sum_height n⟩
  have ho : openers (sumText n) = 0 := by
    have : ∀ n, openers (plusText n []) = 0 := by
      intro n
      induction n with
      | zero => rfl
      | succ n ih =>
        rw [show plusText (n + 1) [] = b! "+1" ++ plusText n [] from rfl, openers_append, ih]
        rfl
    rw [show sumText n = b! "1" ++ plusText n [] from rfl, openers_append, this]
    rfl
  rw [C100_enough_partial env 11 _ (by omega)]
  refine parseScript_written (ts := .expr (intTok 1) :: plusToks n []) ?_ (GExpr_mono (sum_grammar n) (by omega))
  exact .cons _ _ [] [c! '1'] _ white_nil (.expr _ _ _ (one_word (plus_stops (by intro c h; cases h)))) (plus_written (by intro c h; cases h) (.nil _ white_nil) n)

/-- The path with that expression compiles, but takes a call for every sign. -/
theorem C101_deep (n : Nat) : ∃ p q, parsePath env (sumPath n) = .ok p ∧ compile p = .ok q ∧
    ∀ d, d < n + 6 → cCompile d p = .panic "stack overflow" := by
  refine ⟨[⟨.filter, [.expr (sum n)]⟩], ?_⟩
  have hw : Written env.parseFloat (.p (c! '$') :: .p (c! '[') :: .path (.plain .filter) :: .expr (intTok 1) :: plusToks n [.x (c! ')'), .p (c! ']')])
      (sumPath n) := by
    refine .cons _ _ [] [c! '$'] _ white_nil (.path _ _ _ (.punct _ _ (by simp))) ?_
    refine .cons _ _ [] [c! '['] _ white_nil (.path _ _ _ (.punct _ _ (by simp))) ?_
    refine .cons _ _ [] (b! "?(") _ white_nil (.path _ _ _ (.filter _)) ?_
    have hs : Spec.Stops (fun c => Digit c ∨ c = c! '.') (b! ")]") := by intro c h; cases h; simp [Digit]
    refine .cons _ _ [] [c! '1'] _ white_nil (.expr _ _ _ (one_word (plus_stops hs))) (plus_written hs ?_ n)
    refine .cons _ _ [] [c! ')'] _ white_nil (.expr _ _ _ (.punct _ _ (by simp))) ?_
    exact .cons _ _ [] [c! ']'] _ white_nil (.path _ _ _ (.punct _ _ (by simp))) (.nil _ white_nil)
  have hg : GSteps env.reValid (.p (c! '[') :: .path (.plain .filter) :: .expr (intTok 1) :: plusToks n [.x (c! ')'), .p (c! ']')])
      [⟨.filter, [.expr (sum n)]⟩] := by
    have h1 := GSub.filter _ _ ⟨_, GExpr_mono (sum_grammar (env := env) n) (by omega : 0 ≤ 4), rfl⟩
    have h2 := GSteps.cons _ _ _ _ (GStep.sub _ _ h1) .nil
    rw [plusToks_append]
    simpa [StepKind.step] using h2
  have hp := parsePath_iff.mpr ⟨_, hw, _, hg, rfl⟩
  obtain ⟨q, hq⟩ := sum_codes n (asm (mkSmall .for_ 0) ⟨[], []⟩)
  have hc : ∃ q, compile [⟨.filter, [.expr (sum n)]⟩] = .ok q := by
    show ∃ q, (codeLoop ⟨.filter, [.expr (sum n)]⟩ .for_ ⟨[], []⟩ >>= fun p => codePath [] p) = .ok q
    unfold codeLoop codeStep codeArgs codeArgs codePath codeVal
    simp only [hq]
    exact ⟨_, rfl⟩
  obtain ⟨q', hc⟩ := hc
  refine ⟨q', hp, hc, fun d hd => ?_⟩
  match d with
  | 0 => rfl
  | 1 => rfl
  | 2 => rfl
  | 3 => rfl
  | 4 => rfl
  | d + 5 =>
    have := sum_deep n d (asm (mkSmall .for_ 0) ⟨[], []⟩) (by omega)
    show (((((cExpr (sum n) d (asm (mkSmall .for_ 0) ⟨[], []⟩)) >>= fun p => cArgs [] (d + 1) p) >>= _) >>= _) >>= _) = _
    rw [this]
    rfl

/-- No stack is large enough for all paths. -/
theorem C101_fails : ¬ ∃ d, ∀ text p, parsePath env text = .ok p → cCompile d p = compile p := by
  rintro ⟨d, h⟩
  obtain ⟨p, q, h1, h2, h3⟩ := C101_deep env d
  have h4 := h _ _ h1
  rw [h2, h3 d (by omega)] at h4
  cases h4

/-! ### The hypotheses can be met -/

example : cCompile 7 [⟨.filter, [.expr (.inner .neg [.current])]⟩] = compile [⟨.filter, [.expr (.inner .neg [.current])]⟩] :=
  C101_enough_partial 7 2 _ (by
    intro s hs e he
    simp at hs
    subst hs
    simp at he
    subst he
    decide) (by decide)
example : ∃ p, parsePath Ex.env (b! "$[?(-@)]") = .ok p ∧ cCompile 15 p = compile p :=
  ⟨_, rfl, C101_text_partial Ex.env 15 (b! "$[?(-@)]") _ rfl (by decide)⟩

end JP
