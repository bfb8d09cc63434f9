import Verif.Spec.Swap
import Verif.Proof.Perm
/-! Lemmas about replacing expressions: the value of an expression depends on its parts only through their values. -/
namespace JP
open Spec

section
variable {env : Env} {oracle : Oracle} {root : V} {a b : Expr}
  (h : ∀ dot t, evalExpr env oracle root dot a t = evalExpr env oracle root dot b t)
include h

mutual
theorem evalExpr_swap (dot : V) {e e' : Expr} : ∀ (_ : Swap a b e e') (t : Nat),
    evalExpr env oracle root dot e t = evalExpr env oracle root dot e' t
  | .here, t => h dot t
  | .same _, t => rfl
  | .inner op hs, t => by unfold evalExpr; rw [evalKids_swap dot hs t]
theorem evalKids_swap (dot : V) {es es' : List Expr} : ∀ (_ : SwapAll a b es es') (t : Nat),
    evalKids env oracle root dot es t = evalKids env oracle root dot es' t
  | .nil, t => rfl
  | .cons h1 h2, t => by
    unfold evalKids
    rw [evalExpr_swap dot h1 t]
    congr 1
    funext ⟨v, t⟩
    dsimp only
    rw [evalKids_swap dot h2]
end

theorem evalVal_swap (dot : V) {x x' : Val} (hs : SwapVal a b x x') (t : Nat) :
    evalVal env oracle root dot x t = evalVal env oracle root dot x' t := by
  cases hs with
  | same => rfl
  | expr hs => exact evalExpr_swap h dot hs t

theorem evalVals_swap (dot : V) {as as' : List Val} (hs : All2 (SwapVal a b) as as') : ∀ t,
    evalVals env oracle root dot as t = evalVals env oracle root dot as' t := by
  induction hs with
  | nil => intro t; rfl
  | cons h1 _ ih =>
    intro t
    unfold evalVals
    rw [evalVal_swap h dot h1 t]
    congr 1
    funext ⟨v, t⟩
    dsimp only
    rw [ih]

theorem visits_swap {s s' : Step} (hop : s.op = s'.op) (hs : All2 (SwapVal a b) s.args s'.args) : ∀ (l : List V) (acc : GoSlice) (t : Nat),
    visits env oracle root s l acc t = visits env oracle root s' l acc t
  | [], acc, t => rfl
  | v :: r, acc, t => by
    unfold visits
    rw [evalVals_swap h v hs t, hop]
    congr 1
    funext ⟨vs, t⟩
    dsimp only
    congr 1
    funext y
    exact visits_swap hop hs r y _

theorem evalStep_swap {s s' : Step} (hop : s.op = s'.op) (hs : All2 (SwapVal a b) s.args s'.args) (out : GoSlice) (t : Nat) :
    evalStep env oracle root s out t = evalStep env oracle root s' out t := by
  have hl : ∀ vals t, loop env oracle root s vals out t = loop env oracle root s' vals out t := by
    intro vals t
    unfold loop
    rw [visits_swap h hop hs]
  unfold evalStep
  rw [← hop]
  simp only [hl, evalVals_swap h .null hs t]

theorem evalSteps_swap {q q' : Path} (hs : SwapPath a b q q') : ∀ (out : GoSlice) (t : Nat),
    evalSteps env oracle root q out t = evalSteps env oracle root q' out t := by
  unfold SwapPath at hs
  induction hs with
  | nil => intro out t; rfl
  | cons h1 _ ih =>
    intro out t
    unfold evalSteps
    rw [evalStep_swap h h1.1 h1.2 out t]
    congr 1
    funext ⟨v, t⟩
    dsimp only
    rw [ih]

end

section
variable {env : Env}

theorem applyOp_ord {o o' : Ord} {op : Op} (hop : op ≠ .call) (vs : List V) : applyOp env o op vs = applyOp env o' op vs := applyOp_noKeys hop vs

mutual
/-- Without calls, the value does not depend on the order of map iteration, and no iteration is counted. -/
theorem evalExpr_callFree {oracle oracle' : Oracle} {root dot : V} : ∀ (e : Expr), Expr.callFree e = true → ∀ (t t' : Nat) (r : Res RErr V),
    (r = match evalExpr env oracle root dot e t with | .ok x => .ok x.1 | .err e => .err e | .panic m => .panic m | .stuck => .stuck) →
    evalExpr env oracle' root dot e t' = match r with | .ok x => .ok (x, t') | .err e => .err e | .panic m => .panic m | .stuck => .stuck
  | .int _, _, t, t', r, h | .float _, _, t, t', r, h | .str _, _, t, t', r, h | .bool _, _, t, t', r, h | .null, _, t, t', r, h
  | .name _, _, t, t', r, h | .re _, _, t, t', r, h | .current, _, t, t', r, h | .root, _, t, t', r, h => by
    unfold evalExpr at h ⊢; subst h; rfl
  | .inner op kids, hc, t, t', r, h => by
    simp only [Expr.callFree, Bool.and_eq_true, bne_iff_ne, ne_eq] at hc
    unfold evalExpr at h ⊢
    rw [evalKids_callFree (oracle := oracle) kids hc.2 t t' _ rfl]
    subst h
    cases hk : evalKids env oracle root dot kids t with
    | ok x =>
      obtain ⟨vs, t1⟩ := x
      simp only [Res.bind_ok]
      rw [applyOp_ord hc.1 (o := oracle' t') (o' := oracle t1)]
      cases ha : applyOp env (oracle t1) op vs with
      | ok v => simp [if_neg hc.1]
      | err e => rfl
      | panic m => rfl
      | stuck => rfl
    | err e => rfl
    | panic m => rfl
    | stuck => rfl
theorem evalKids_callFree {oracle oracle' : Oracle} {root dot : V} : ∀ (es : List Expr), Expr.callFrees es = true → ∀ (t t' : Nat) (r : Res RErr (List V)),
    (r = match evalKids env oracle root dot es t with | .ok x => .ok x.1 | .err e => .err e | .panic m => .panic m | .stuck => .stuck) →
    evalKids env oracle' root dot es t' = match r with | .ok x => .ok (x, t') | .err e => .err e | .panic m => .panic m | .stuck => .stuck
  | [], _, t, t', r, h => by unfold evalKids at h ⊢; subst h; rfl
  | e :: es, hc, t, t', r, h => by
    simp only [Expr.callFrees, Bool.and_eq_true] at hc
    unfold evalKids at h ⊢
    rw [evalExpr_callFree (oracle := oracle) e hc.1 t t' _ rfl]
    subst h
    cases he : evalExpr env oracle root dot e t with
    | ok x =>
      obtain ⟨v, t1⟩ := x
      simp only [Res.bind_ok]
      rw [evalKids_callFree (oracle := oracle) es hc.2 t1 t' _ rfl]
      cases hk : evalKids env oracle root dot es t1 with
      | ok y => rfl
      | err e => rfl
      | panic m => rfl
      | stuck => rfl
    | err e => rfl
    | panic m => rfl
    | stuck => rfl
end

mutual
theorem evalExpr_fixed {oracle : Oracle} {root dot dot' : V} : ∀ (e : Expr), Expr.fixed e = true → ∀ t,
    evalExpr env oracle root dot e t = evalExpr env oracle root dot' e t
  | .int _, _, t | .float _, _, t | .str _, _, t | .bool _, _, t | .null, _, t
  | .name _, _, t | .re _, _, t | .root, _, t => by unfold evalExpr; rfl
  | .current, h, t => by cases h
  | .inner op kids, h, t => by
    simp only [Expr.fixed, Bool.and_eq_true] at h
    unfold evalExpr
    rw [evalKids_fixed (dot' := dot') kids h.2 t]
theorem evalKids_fixed {oracle : Oracle} {root dot dot' : V} : ∀ (es : List Expr), Expr.fixeds es = true → ∀ t,
    evalKids env oracle root dot es t = evalKids env oracle root dot' es t
  | [], _, t => rfl
  | e :: es, h, t => by
    simp only [Expr.fixeds, Bool.and_eq_true] at h
    unfold evalKids
    rw [evalExpr_fixed (dot' := dot') e h.1 t]
    congr 1
    funext ⟨v, t⟩
    dsimp only
    rw [evalKids_fixed (dot' := dot') es h.2]
end

mutual
theorem fixed_callFree : ∀ (e : Expr), Expr.fixed e = true → Expr.callFree e = true
  | .int _, _ | .float _, _ | .str _, _ | .bool _, _ | .null, _ | .name _, _ | .re _, _ | .root, _ => rfl
  | .current, h => by cases h
  | .inner op kids, h => by
    simp only [Expr.fixed, Expr.callFree, Bool.and_eq_true] at h ⊢
    exact ⟨h.1, fixeds_callFrees kids h.2⟩
theorem fixeds_callFrees : ∀ (es : List Expr), Expr.fixeds es = true → Expr.callFrees es = true
  | [], _ => rfl
  | e :: es, h => by
    simp only [Expr.fixeds, Expr.callFrees, Bool.and_eq_true] at h ⊢
    exact ⟨fixed_callFree e h.1, fixeds_callFrees es h.2⟩
end

end

end JP
