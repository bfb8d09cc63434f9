import Verif.Model.CodeDepth
import Verif.Spec.CodeDepth
import Verif.Proof.Written
/-!
The coder with a limited stack.
-/
namespace JP
open Spec

theorem bframe_enough {d : Nat} {k : Nat → Bld} {y : Bld} (h : 1 ≤ d) (hk : ∀ e, d = e + 1 → k e = y) : bframe d k = y := by
  cases d with
  | zero => omega
  | succ e => exact hk e rfl

mutual
theorem cExpr_enough : ∀ (e : Expr) (d : Nat), exprHeight e ≤ d → cExpr e d = codeExpr e
  | .inner op kids, d, h => by
    unfold cExpr codeExpr
    unfold exprHeight at h
    refine bframe_enough (by omega) fun e he => ?_
    rw [cKids_enough kids e (by omega)]
  | .int n, d, h => by unfold cExpr; unfold exprHeight at h; exact bframe_enough h fun _ _ => rfl
  | .float n, d, h => by unfold cExpr; unfold exprHeight at h; exact bframe_enough h fun _ _ => rfl
  | .str n, d, h => by unfold cExpr; unfold exprHeight at h; exact bframe_enough h fun _ _ => rfl
  | .name n, d, h => by unfold cExpr; unfold exprHeight at h; exact bframe_enough h fun _ _ => rfl
  | .re n, d, h => by unfold cExpr; unfold exprHeight at h; exact bframe_enough h fun _ _ => rfl
  | .bool n, d, h => by unfold cExpr; unfold exprHeight at h; exact bframe_enough h fun _ _ => rfl
  | .null, d, h => by unfold cExpr; unfold exprHeight at h; exact bframe_enough h fun _ _ => rfl
  | .current, d, h => by unfold cExpr; unfold exprHeight at h; exact bframe_enough h fun _ _ => rfl
  | .root, d, h => by unfold cExpr; unfold exprHeight at h; exact bframe_enough h fun _ _ => rfl
theorem cKids_enough : ∀ (es : List Expr) (d : Nat), exprHeights es ≤ d → cKids es d = codeKids es
  | [], d, _ => by unfold cKids codeKids; rfl
  | e :: r, d, h => by
    unfold exprHeights at h
    unfold cKids codeKids
    rw [cExpr_enough e d (by omega), cKids_enough r d (by omega)]
end

theorem cVal_enough {op : Op} {v : Val} {d : Nat} (h1 : 1 ≤ d) (h : ∀ e, v = .expr e → exprHeight e + 1 ≤ d) : cVal op v d = codeVal op v := by
  unfold cVal
  refine bframe_enough h1 fun d' hd => ?_
  cases v with
  | expr e => exact cExpr_enough e d' (by have := h e rfl; omega)
  | _ => rfl

theorem cArgs_enough : ∀ (vs : List Val) (d : Nat), 1 ≤ d → (∀ e, Val.expr e ∈ vs → exprHeight e + 1 ≤ d) → cArgs vs d = codeArgs vs
  | [], d, _, _ => by unfold cArgs codeArgs; rfl
  | v :: r, d, h1, h => by
    unfold cArgs codeArgs
    rw [cVal_enough h1 (fun e he => h e (by simp [he])), cArgs_enough r d h1 (fun e he => h e (by simp [he]))]

theorem cStep_enough {s : Step} {d : Nat} (h1 : 3 ≤ d) (h : ∀ e, Val.expr e ∈ s.args → exprHeight e + 3 ≤ d) : cStep s d = codeStep s := by
  unfold cStep codeStep
  refine bframe_enough (by omega) fun d1 e1 => ?_
  rw [bframe_enough (y := codeArgs s.args) (by omega) fun d2 e2 => cArgs_enough s.args d2 (by omega) (fun e he => by have := h e he; omega)]

theorem cLoop_enough {s : Step} {intro : Op} {d : Nat} (h1 : 4 ≤ d) (h : ∀ e, Val.expr e ∈ s.args → exprHeight e + 4 ≤ d) :
    cLoop s intro d = codeLoop s intro := by
  unfold cLoop codeLoop
  refine bframe_enough (by omega) fun d1 e1 => ?_
  rw [cStep_enough (by omega) (fun e he => by have := h e he; omega)]

theorem cPathStep_enough {s : Step} {d : Nat} (h1 : 4 ≤ d) (h : ∀ e, Val.expr e ∈ s.args → exprHeight e + 4 ≤ d) : cPathStep s d = codePathStep s := by
  unfold cPathStep codePathStep
  rw [cStep_enough (by omega) (fun e he => by have := h e he; omega), cLoop_enough h1 h, cLoop_enough h1 h]
  split
  · cases hv : s.args with
    | nil => rfl
    | cons v r => exact cVal_enough (by omega) (fun e he => by have := h e (by rw [hv, he]; simp); omega)
  · rfl

theorem cPath_enough : ∀ (p : Path) (d n : Nat), n + 4 ≤ d → Low n p → cPath p d = codePath p
  | [], _, _, _, _ => by unfold cPath codePath; rfl
  | s :: r, d, n, hd, h => by
    unfold cPath codePath
    rw [cPathStep_enough (by omega) (fun e he => by have := h s (by simp) e he; omega), cPath_enough r d n hd (fun s hs => h s (by simp [hs]))]

/-! ### With any stack -/

/-- The first builder does what the second does or comes to the end of the stack. -/
def CutB (x y : Bld) : Prop := ∀ p, x p = y p ∨ x p = .panic "stack overflow"

theorem CutB.refl {x : Bld} : CutB x x := fun _ => .inl rfl

theorem CutB.frame {d : Nat} {k : Nat → Bld} {y : Bld} (h : ∀ e, CutB (k e) y) : CutB (bframe d k) y := by
  cases d with
  | zero => exact fun _ => .inr rfl
  | succ e => exact h e

theorem CutB.bind {x y : Bld} (h : CutB x y) {f g : Program → Res CErr Program} (k : CutB f g) (p : Program) :
    (x p >>= f) = (y p >>= g) ∨ (x p >>= f) = .panic "stack overflow" := by
  rcases h p with h | h
  · rw [h]
    cases y p with
    | ok q => exact k q
    | err e => exact .inl rfl
    | panic m => exact .inl rfl
    | stuck => exact .inl rfl
  · rw [h]; exact .inr rfl

mutual
theorem cExpr_cut : ∀ (e : Expr) (d : Nat), CutB (cExpr e d) (codeExpr e)
  | .inner op kids, d => by
    unfold cExpr codeExpr
    refine .frame fun e p => ?_
    split
    · exact .inl rfl
    · exact CutB.bind (cKids_cut kids e) .refl p
  | .int n, d => by unfold cExpr; exact .frame fun _ => .refl
  | .float n, d => by unfold cExpr; exact .frame fun _ => .refl
  | .str n, d => by unfold cExpr; exact .frame fun _ => .refl
  | .name n, d => by unfold cExpr; exact .frame fun _ => .refl
  | .re n, d => by unfold cExpr; exact .frame fun _ => .refl
  | .bool n, d => by unfold cExpr; exact .frame fun _ => .refl
  | .null, d => by unfold cExpr; exact .frame fun _ => .refl
  | .current, d => by unfold cExpr; exact .frame fun _ => .refl
  | .root, d => by unfold cExpr; exact .frame fun _ => .refl
theorem cKids_cut : ∀ (es : List Expr) (d : Nat), CutB (cKids es d) (codeKids es)
  | [], d => by unfold cKids codeKids; exact .refl
  | e :: r, d => by
    unfold cKids codeKids
    exact fun p => CutB.bind (cExpr_cut e d) (cKids_cut r d) p
end

theorem cVal_cut (op : Op) (v : Val) (d : Nat) : CutB (cVal op v d) (codeVal op v) := by
  unfold cVal
  refine .frame fun e => ?_
  cases v with
  | expr x => exact cExpr_cut x e
  | _ => exact .refl

theorem cArgs_cut : ∀ (vs : List Val) (d : Nat), CutB (cArgs vs d) (codeArgs vs)
  | [], _ => by unfold cArgs codeArgs; exact .refl
  | v :: r, d => by
    unfold cArgs codeArgs
    exact fun p => CutB.bind (cVal_cut _ v d) (cArgs_cut r d) p

theorem cStep_cut (s : Step) (d : Nat) : CutB (cStep s d) (codeStep s) := by
  unfold cStep codeStep
  exact .frame fun e p => CutB.bind (.frame fun e' => cArgs_cut s.args e') .refl p

theorem cLoop_cut (s : Step) (intro : Op) (d : Nat) : CutB (cLoop s intro d) (codeLoop s intro) := by
  unfold cLoop codeLoop
  exact .frame fun e p => CutB.bind (cStep_cut s e) .refl _

theorem cPathStep_cut (s : Step) (d : Nat) : CutB (cPathStep s d) (codePathStep s) := by
  unfold cPathStep codePathStep
  split
  · cases s.args with
    | nil => exact .refl
    | cons v r => exact cVal_cut _ _ d
  · cases s.op
    all_goals first | exact cLoop_cut s _ d | exact cStep_cut s d

theorem cPath_cut : ∀ (p : Path) (d : Nat), CutB (cPath p d) (codePath p)
  | [], _ => by unfold cPath codePath; exact .refl
  | s :: r, d => by
    unfold cPath codePath
    exact fun p => CutB.bind (cPathStep_cut s d) (cPath_cut r d) p

/-! ### Sums -/

theorem sum_height (n : Nat) : exprHeight (sum n) = n + 1 := by
  induction n with
  | zero => rfl
  | succ n ih => simp only [sum, exprHeight, exprHeights, ih]; omega

theorem sum_codes (n : Nat) (p : Program) : ∃ q, codeExpr (sum n) p = .ok q := by
  induction n generalizing p with
  | zero => exact ⟨_, rfl⟩
  | succ n ih =>
    obtain ⟨q, hq⟩ := ih p
    unfold sum codeExpr codeKids codeKids codeKids
    rw [if_neg (by decide)]
    simp only [hq]
    exact ⟨_, rfl⟩

theorem sum_deep : ∀ (n d : Nat) (p : Program), d ≤ n → cExpr (sum n) d p = .panic "stack overflow"
  | 0, d, p, h => by
    obtain rfl : d = 0 := by omega
    rfl
  | n + 1, d, p, h => by
    unfold sum cExpr
    cases d with
    | zero => rfl
    | succ d =>
      unfold bframe cKids
      dsimp only
      rw [if_neg (by decide), sum_deep n d p (by omega)]
      rfl

/-- Their tokens. -/
def plusToks : Nat → List Token → List Token
  | 0, t => t
  | n + 1, t => .x (c! '+') :: .expr (intTok 1) :: plusToks n t

theorem plusToks_append (n : Nat) (t : List Token) : plusToks n t = plusToks n [] ++ t := by
  induction n with
  | zero => rfl
  | succ n ih => simp [plusToks, ih]

theorem plusToks_succ (n : Nat) (t : List Token) : plusToks (n + 1) t = plusToks n (.x (c! '+') :: .expr (intTok 1) :: t) := by
  induction n with
  | zero => rfl
  | succ n ih => rw [plusToks, ih]; rfl

variable {env : Env}

theorem one_word {next : Bytes} (h : Spec.Stops (fun c => Digit c ∨ c = c! '.') next) : ExprWord env.parseFloat (intTok 1) [c! '1'] next :=
  .int [c! '1'] _ ⟨by simp, by simp [All, Digit]⟩ h (by decide)

theorem plus_stops {n : Nat} {t : Bytes} (h : Spec.Stops (fun c => Digit c ∨ c = c! '.') t) : Spec.Stops (fun c => Digit c ∨ c = c! '.') (plusText n t) := by
  cases n with
  | zero => exact h
  | succ n => intro c hc; cases hc; simp [Digit]

theorem white_nil : White [] := by simp [White, All]

theorem plus_written {t : Bytes} {ts : List Token} (hs : Spec.Stops (fun c => Digit c ∨ c = c! '.') t) (h : Written env.parseFloat ts t) :
    ∀ n, Written env.parseFloat (plusToks n ts) (plusText n t)
  | 0 => h
  | n + 1 => .cons _ _ [] [c! '+'] _ white_nil (.expr _ _ _ (.punct _ _ (by simp)))
      (.cons _ _ [] [c! '1'] _ white_nil (.expr _ _ _ (one_word (plus_stops hs))) (plus_written hs h n))

theorem sum_grammar (n : Nat) : GExpr env.reValid 4 (.expr (intTok 1) :: plusToks n []) (sum n) := by
  induction n with
  | zero => exact .unary _ _ _ (.primary _ _ (.atom _ _ (.int 1)))
  | succ n ih =>
    have := GExpr.binary 4 _ _ _ _ 4 [.expr (intTok 1)] (.int 1) (Nat.le_refl 4) .add ih (.unary _ _ _ (.primary _ _ (.atom _ _ (.int 1))))
    rw [plusToks_succ, plusToks_append]
    exact this

mutual
theorem height_le : ∀ e : Expr, exprHeight e ≤ e.size
  | .inner _ kids => by unfold exprHeight Expr.size; have := heights_le kids; omega
  | .int _ | .float _ | .str _ | .name _ | .re _ | .bool _ | .null | .current | .root => by unfold exprHeight Expr.size; omega
theorem heights_le : ∀ es : List Expr, exprHeights es ≤ Exprs.size es
  | [] => by unfold exprHeights; omega
  | e :: r => by unfold exprHeights Exprs.size; have := height_le e; have := heights_le r; omega
end

theorem low_size (p : Path) : Low p.size p := by
  have hv : ∀ (vs : List Val) e, Val.expr e ∈ vs → exprHeight e ≤ Vals.size vs := by
    intro vs e h
    induction vs with
    | nil => cases h
    | cons v r ih =>
      unfold Vals.size
      rcases List.mem_cons.mp h with h | h
      · subst h; have := height_le e; simp only [Val.size]; omega
      · have := ih h; omega
  intro s hs e he
  have h1 := hv s.args e he
  induction p with
  | nil => cases hs
  | cons t r ih =>
    unfold Path.size
    rcases List.mem_cons.mp hs with h | h
    · subst h; unfold Step.size; omega
    · have := ih h; omega

end JP
