import Verif.Spec.Compose
import Verif.Proof.Select
/-! Composition of steps; independence from the order of map iteration. -/
namespace JP
open Spec

/-! ### Shifting the clock -/

/-- Two outcomes that agree up to `R` on values and up to the start of the clock. -/
def Sh {α : Type} (R : α → α → Prop) (t t' : Nat) (r r' : Res RErr (α × Nat)) : Prop :=
  match r, r' with
  | .ok (a, n), .ok (a', n') => R a a' ∧ ∃ k, n = t + k ∧ n' = t' + k
  | .err e, .err e' => e = e'
  | .panic m, .panic m' => m = m'
  | .stuck, .stuck => True
  | _, _ => False

theorem Sh.ok {α : Type} {R : α → α → Prop} {t t' k : Nat} {a a' : α} (h : R a a') : Sh R t t' (.ok (a, t + k)) (.ok (a', t' + k)) :=
  ⟨h, k, rfl, rfl⟩

theorem Sh.bind {α β : Type} {R : α → α → Prop} {Q : β → β → Prop} {t t' : Nat} {r r' : Res RErr (α × Nat)}
    {f f' : α × Nat → Res RErr (β × Nat)} (h : Sh R t t' r r')
    (hf : ∀ a a' k, R a a' → Sh Q t t' (f (a, t + k)) (f' (a', t' + k))) : Sh Q t t' (r >>= f) (r' >>= f') := by
  unfold Sh at h
  split at h
  · obtain ⟨h, k, rfl, rfl⟩ := h; exact hf _ _ _ h
  · exact h
  · exact h
  · trivial
  · exact h.elim

theorem Sh.bind1 {α β : Type} {Q : β → β → Prop} {t t' : Nat} {r r' : Res RErr α} (h : r = r')
    {f f' : α → Res RErr (β × Nat)} (hf : ∀ a, Sh Q t t' (f a) (f' a)) : Sh Q t t' (r >>= f) (r' >>= f') := by
  subst h
  cases r with
  | ok a => exact hf a
  | err e => rfl
  | panic m => rfl
  | stuck => trivial

/-- Two slices with the same elements. -/
def SameElems (a b : GoSlice) : Prop := a.elems = b.elems

theorem Sh.weaken {α : Type} {R Q : α → α → Prop} {t t' : Nat} {r r' : Res RErr (α × Nat)} (h : Sh R t t' r r')
    (hq : ∀ a b, R a b → Q a b) : Sh Q t t' r r' := by
  unfold Sh at h ⊢
  split at h <;> simp_all

section shift
variable {env : Env} {oracle oracle' : Oracle} {root root' : V} {t t' : Nat} (ho : ∀ k, oracle (t + k) = oracle' (t' + k))
include ho

mutual
theorem evalExpr_shift (dot : V) : ∀ (e : Expr), e.noRoot = true ∨ root = root' → ∀ k,
    Sh Eq t t' (evalExpr env oracle root dot e (t + k)) (evalExpr env oracle' root' dot e (t' + k))
  | .int _, _, k | .float _, _, k | .str _, _, k | .bool _, _, k | .null, _, k | .name _, _, k | .re _, _, k | .current, _, k => by
    unfold evalExpr; exact .ok rfl
  | .root, h, k => by
    simp only [Expr.noRoot, Bool.false_eq_true, false_or] at h
    subst h
    unfold evalExpr; exact .ok rfl
  | .inner op kids, h, k => by
    unfold evalExpr
    refine Sh.bind (evalKids_shift dot kids (by simpa [Expr.noRoot] using h) k) ?_
    rintro vs _ k rfl
    dsimp only
    rw [ho k]
    refine Sh.bind1 rfl ?_
    intro v
    split
    · exact Sh.ok (k := k + 1) rfl
    · exact Sh.ok rfl
theorem evalKids_shift (dot : V) : ∀ (es : List Expr), Exprs.noRoot es = true ∨ root = root' → ∀ k,
    Sh Eq t t' (evalKids env oracle root dot es (t + k)) (evalKids env oracle' root' dot es (t' + k))
  | [], _, k => by unfold evalKids; exact .ok rfl
  | e :: r, h, k => by
    simp only [Exprs.noRoot, Bool.and_eq_true] at h
    have h1 : e.noRoot = true ∨ root = root' := h.imp And.left id
    have h2 : Exprs.noRoot r = true ∨ root = root' := h.imp And.right id
    unfold evalKids
    refine Sh.bind (evalExpr_shift dot e h1 k) ?_
    rintro v _ k rfl
    refine Sh.bind (evalKids_shift dot r h2 k) ?_
    rintro vs _ k rfl
    exact .ok rfl
end

theorem evalVals_shift (dot : V) : ∀ (as : List Val), (∀ e, Val.expr e ∈ as → e.noRoot = true ∨ root = root') → ∀ k,
    Sh Eq t t' (evalVals env oracle root dot as (t + k)) (evalVals env oracle' root' dot as (t' + k))
  | [], _, k => by unfold evalVals; exact .ok rfl
  | a :: r, h, k => by
    unfold evalVals
    have ha : Sh Eq t t' (evalVal env oracle root dot a (t + k)) (evalVal env oracle' root' dot a (t' + k)) := by
      cases a with
      | expr e => exact evalExpr_shift ho dot e (h e (by simp)) k
      | _ => exact .ok rfl
    refine Sh.bind ha ?_
    rintro v _ k rfl
    refine Sh.bind (evalVals_shift dot r (fun e he => h e (by simp [he])) k) ?_
    rintro vs _ k rfl
    exact .ok rfl

theorem visits_shift {s : Step} (hs : ∀ e, Val.expr e ∈ s.args → e.noRoot = true ∨ root = root') : ∀ (l : List V) (out : GoSlice) (k : Nat),
    Sh Eq t t' (visits env oracle root s l out (t + k)) (visits env oracle' root' s l out (t' + k))
  | [], out, k => by unfold visits; exact .ok rfl
  | v :: r, out, k => by
    unfold visits
    refine Sh.bind (evalVals_shift ho v s.args hs k) ?_
    rintro vs _ k rfl
    dsimp only
    rw [ho k]
    refine Sh.bind1 rfl ?_
    intro out
    split
    · exact visits_shift hs r out (k + 1)
    · exact visits_shift hs r out k

theorem loop_shift {s : Step} (hs : ∀ e, Val.expr e ∈ s.args → e.noRoot = true ∨ root = root') (l : List V) {out out' : GoSlice}
    (he : out.elems = out'.elems) (k : Nat) :
    Sh SameElems t t' (loop env oracle root s l out (t + k)) (loop env oracle' root' s l out' (t' + k)) := by
  unfold loop
  rw [← he]
  split
  · exact .ok he
  · exact (visits_shift ho hs _ _ _).weaken (fun a b h => by subst h; rfl)

theorem evalStep_shift {s : Step} (hs : ∀ e, Val.expr e ∈ s.args → e.noRoot = true ∨ root = root') {out out' : GoSlice}
    (he : out.elems = out'.elems) (k : Nat) :
    Sh SameElems t t' (evalStep env oracle root s out (t + k)) (evalStep env oracle' root' s out' (t' + k)) := by
  have hsel : ∀ neg, Sh SameElems t t' (do
      let (vs, t) ← evalVals env oracle root .null s.args (t + k)
      match vs with
      | [sel] =>
        if isNothing sel then Res.ok (some [], t)
        else do
          let out ← applySelection (fun _ el acc => valsByKey env acc el sel neg) 0 (some []) out.elems
          Res.ok (out, t)
      | _ => .stuck : Res RErr (GoSlice × Nat)) (do
      let (vs, t) ← evalVals env oracle' root' .null s.args (t' + k)
      match vs with
      | [sel] =>
        if isNothing sel then Res.ok (some [], t)
        else do
          let out ← applySelection (fun _ el acc => valsByKey env acc el sel neg) 0 (some []) out'.elems
          Res.ok (out, t)
      | _ => .stuck : Res RErr (GoSlice × Nat)) := by
    intro neg
    rw [← he]
    refine Sh.bind (evalVals_shift ho .null s.args hs k) ?_
    rintro vs _ k rfl
    dsimp only
    split
    · split
      · exact .ok rfl
      · refine Sh.bind1 rfl ?_
        intro o
        exact .ok rfl
    · trivial
  have hwalk : Sh SameElems t t' (loop env oracle root s (walker (oracle (t + k)) 0 out.elems) out (t + k + 1))
      (loop env oracle' root' s (walker (oracle' (t' + k)) 0 out'.elems) out' (t' + k + 1)) := by
    rw [ho k, ← he]
    exact loop_shift ho hs _ he (k + 1)
  unfold evalStep
  cases hop : s.op <;> simp only
  case wild =>
    rw [ho k, ← he]
    refine Sh.bind1 rfl ?_
    intro o
    exact Sh.ok (k := k + 1) rfl
  case member => exact hsel _
  case select => exact hsel _
  case union =>
    rw [← he]
    refine Sh.bind (evalVals_shift ho .null s.args hs k) ?_
    rintro vs _ k rfl
    refine Sh.bind1 rfl ?_
    intro o
    exact .ok rfl
  case filter =>
    rw [ho k, ← he]
    exact loop_shift ho hs _ he (k + 1)
  all_goals first | exact hwalk | trivial

theorem evalSteps_shift : ∀ {p : Path}, p.NoRoot ∨ root = root' → ∀ {out out' : GoSlice}, out.elems = out'.elems → ∀ (k : Nat),
    Sh SameElems t t' (evalSteps env oracle root p out (t + k)) (evalSteps env oracle' root' p out' (t' + k))
  | [], _, out, out', he, k => by unfold evalSteps; exact .ok he
  | s :: r, h, out, out', he, k => by
    unfold evalSteps
    refine Sh.bind (evalStep_shift ho (fun e he => h.imp (fun h => h s (by simp) e he) id) he k) ?_
    intro o o' k heo
    exact evalSteps_shift (h.imp (fun h s hs => h s (by simp [hs])) id) heo k

end shift

theorem Sh.stepResult {t t' : Nat} {r r' : Res RErr (GoSlice × Nat)} (h : Sh SameElems t t' r r') :
    stepResult r = stepResult r' := by
  unfold Sh at h
  split at h
  · obtain ⟨h, _⟩ := h
    simp only [JP.stepResult, Res.bind_ok]
    rw [show _ = _ from h]
  · subst h; rfl
  · subst h; rfl
  · rfl
  · exact h.elim

end JP
