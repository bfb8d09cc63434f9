import Verif.Proof.ParseWF
import Verif.Proof.ParseComplete
/-! More fuel does not change what the parsers return. -/
namespace JP
open Spec

variable {env : Env}

/-- `m'` returns what `m` returns, where `m` has enough fuel. -/
def FLe {α : Type} (m m' : P α) : Prop := ∀ s, m s = .stuck ∨ m' s = m s

theorem FLe.rfl {α : Type} {m : P α} : FLe m m := fun _ => .inr (Eq.refl _)

theorem FLe.stuck {α : Type} {m : P α} : FLe P.stuck m := fun _ => .inl (Eq.refl _)

theorem FLe.trans {α : Type} {a b c : P α} (h1 : FLe a b) (h2 : FLe b c) : FLe a c := by
  intro s
  rcases h1 s with h | h
  · exact .inl h
  · rcases h2 s with h' | h'
    · exact .inl (h ▸ h')
    · exact .inr (h'.trans h)

theorem FLe.bind {α β : Type} {m m' : P α} {f f' : α → P β} (h : FLe m m') (hf : ∀ a, FLe (f a) (f' a)) :
    FLe (m >>= f) (m' >>= f') := by
  intro s
  show P.bind m f s = .stuck ∨ P.bind m' f' s = P.bind m f s
  unfold P.bind
  rcases h s with h | h
  · rw [h]; exact .inl (Eq.refl _)
  · rw [h]
    cases m s with
    | ok x => exact hf x.1 x.2
    | _ => exact .inr (Eq.refl _)

theorem FLe.ite {α : Type} {p : Prop} [Decidable p] {a b a' b' : P α} (h1 : FLe a a') (h2 : FLe b b') :
    FLe (if p then a else b) (if p then a' else b') := by
  split <;> assumption

/-- One more unit of fuel, for all functions of the expression parser. -/
structure FuelStep (env : Env) (f : Nat) : Prop where
  expr : ∀ pri, FLe (pExpr env f pri) (pExpr env (f + 1) pri)
  loop : ∀ pri e, FLe (pExprLoop env f pri e) (pExprLoop env (f + 1) pri e)
  primary : FLe (pPrimary env f) (pPrimary env (f + 1))
  ploop : ∀ e, FLe (pPrimaryLoop env f e) (pPrimaryLoop env (f + 1) e)
  app : ∀ op stop args, FLe (pApplication env f op stop args) (pApplication env (f + 1) op stop args)
  list : ∀ l, FLe (pExprList env f l) (pExprList env (f + 1) l)
  primary1 : FLe (pPrimary1 env f) (pPrimary1 env (f + 1))

theorem fuelStep (env : Env) : ∀ f, FuelStep env f
  | 0 => by
    refine ⟨fun pri => ?_, fun pri e => ?_, ?_, fun e => ?_, fun op stop args => ?_, fun l => ?_, ?_⟩
    · rw [pExpr]; exact .stuck
    · rw [pExprLoop]; exact .stuck
    · rw [pPrimary]; exact .stuck
    · rw [pPrimaryLoop]; exact .stuck
    · rw [pApplication]; exact .stuck
    · rw [pExprList]; exact .stuck
    · rw [pPrimary1]; exact .stuck
  | f + 1 => by
    have ih := fuelStep env f
    refine ⟨fun pri => ?_, fun pri e => ?_, ?_, fun e => ?_, fun op stop args => ?_, fun l => ?_, ?_⟩
    · rw [pExpr, pExpr]; exact .bind ih.primary fun e => ih.loop pri e
    · rw [pExprLoop, pExprLoop]
      refine .bind .rfl fun t => .ite (.bind .rfl fun lx => ?_) .rfl
      cases lx.err with
      | some e => exact .rfl
      | none => exact .bind (ih.expr _) fun r => ih.loop _ _
    · rw [pPrimary, pPrimary]; exact .bind ih.primary1 fun e => ih.ploop e
    · rw [pPrimaryLoop, pPrimaryLoop]
      refine .bind .rfl fun t => .ite (.ite .rfl (.bind .rfl fun _ => .bind (ih.app _ _ _) fun _ => ih.ploop _)) ?_
      refine .ite (.bind .rfl fun _ => .bind (ih.expr _) fun _ => .bind .rfl fun _ => ih.ploop _) ?_
      refine .ite (.bind .rfl fun _ => .bind .rfl fun lx => ?_) .rfl
      cases lx.err with
      | some e => exact .rfl
      | none => exact .ite .rfl (.bind .rfl fun _ => ih.ploop _)
    · rw [pApplication, pApplication]
      refine .bind .rfl fun t => ?_
      dsimp only
      by_cases h : t ≠ stop
      · rw [if_pos h, if_pos h]; exact .bind (ih.list _) fun _ => .rfl
      · rw [if_neg h, if_neg h]; exact .rfl
    · rw [pExprList, pExprList]
      exact .bind (ih.expr _) fun e => .bind .rfl fun t => .ite .rfl (.bind .rfl fun _ => ih.list _)
    · rw [pPrimary1, pPrimary1]
      refine .bind .rfl fun lx => ?_
      cases lx.err with
      | some e => exact .rfl
      | none =>
        dsimp only
        cases lx.tok with
        | ch c =>
          dsimp only
          refine .ite (.bind ih.primary fun _ => .rfl) (.ite (.bind ih.primary fun _ => .rfl) (.ite .rfl
            (.ite .rfl (.ite .rfl (.ite (.bind (ih.expr _) fun _ => .rfl) (.ite (ih.app _ _ _) .rfl))))))
        | _ => exact .rfl

theorem FLe_of_step {α : Type} {m : Nat → P α} (h : ∀ f, FLe (m f) (m (f + 1))) : ∀ {a b : Nat}, a ≤ b → FLe (m a) (m b) := by
  intro a b hab
  induction hab with
  | refl => exact .rfl
  | step _ ih => exact ih.trans (h _)

/-- What is returned with much fuel is returned with fuel that suffices to return anything. -/
theorem Ev.fuel {α : Type} {m : Nat → P α} (h : ∀ f, FLe (m f) (m (f + 1))) {s : LState} {x : α × LState}
    (hx : Ev m s x) {f : Nat} (hf : m f s ≠ .stuck) : m f s = .ok x := by
  obtain ⟨f0, h0⟩ := hx
  rcases FLe_of_step h (Nat.le_add_right f f0) s with h1 | h1
  · exact absurd h1 hf
  · rw [← h1]; exact h0 _ (Nat.le_add_left f0 f)

theorem ne_stuck_of_wp {α : Type} {m : P α} {Q : α → LState → Prop} {E : PErr → Prop} {s : LState} (h : wp m Q E s) :
    m s ≠ .stuck := by
  intro hs
  unfold wp at h
  rw [hs] at h
  exact h

theorem Inv.fresh (r : Rd) : Inv env r.text ⟨r, none⟩ := ⟨rfl, fun _ h => by cases h⟩

theorem parseScriptExpr_of {r : Rd} {x : Expr × LState} (h : Ev (fun f => pExpr env f 0) ⟨r, none⟩ x) :
    parseScriptExpr env ⟨r, none⟩ = .ok x :=
  h.fuel (m := fun f => pExpr env f 0) (fun f => (fuelStep env f).expr 0)
    (ne_stuck_of_wp (pExpr_ok (env := env) _ 0 _ (by omega) (Inv.fresh r) (mu_fuel ⟨r, none⟩)))

theorem pValList_step (env : Env) : ∀ f, FLe (pValList env f) (pValList env (f + 1))
  | 0 => by rw [pValList]; exact .stuck
  | f + 1 => by
    rw [pValList, pValList]
    exact .bind .rfl fun v => .bind .rfl fun t => .ite .rfl (.bind .rfl fun _ => .bind (pValList_step env f) fun _ => .rfl)

theorem pSteps_step (env : Env) : ∀ f acc, FLe (pSteps env f acc) (pSteps env (f + 1) acc)
  | 0, acc => by rw [pSteps]; exact .stuck
  | f + 1, acc => by
    rw [pSteps, pSteps]
    refine .bind .rfl fun lx => ?_
    cases lx.tok with
    | nest =>
      refine .bind .rfl fun t => .ite (.bind .rfl fun _ => .bind .rfl fun sub => ?_) (.bind .rfl fun m => ?_)
      · cases nestOp sub.op with
        | none => exact .rfl
        | some op => exact pSteps_step env f _
      · cases m with
        | none => exact pSteps_step env f _
        | some v => exact pSteps_step env f _
    | ch c =>
      refine .ite (.bind .rfl fun m => ?_) (.ite (.bind .rfl fun _ => pSteps_step env f _) .rfl)
      cases m with
      | none => exact pSteps_step env f _
      | some v => exact pSteps_step env f _
    | _ => exact .rfl

theorem pValList_of {r : Rd} {x : List Step × LState} (h : Ev (fun f => pValList env f) ⟨r, none⟩ x) :
    pValList env (pathFuel ⟨r, none⟩) ⟨r, none⟩ = .ok x :=
  h.fuel (m := fun f => pValList env f) (fun f => pValList_step env f)
    (ne_stuck_of_wp (pValList_ok (env := env) _ _ (Inv.fresh r) (by have := pathFuel_ok ⟨r, none⟩; omega)))

theorem pSteps_of {r : Rd} {x : Path × LState} (h : Ev (fun f => pSteps env f []) ⟨r, none⟩ x) :
    pSteps env (pathFuel ⟨r, none⟩) [] ⟨r, none⟩ = .ok x :=
  h.fuel (m := fun f => pSteps env f []) (fun f => pSteps_step env f [])
    (ne_stuck_of_wp (pSteps_ok (env := env) _ _ _ (Inv.fresh r) (by intro s hs; cases hs) (by have := pathFuel_ok ⟨r, none⟩; omega)))

end JP
