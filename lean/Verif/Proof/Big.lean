import Verif.Proof.Api
import Verif.Spec.Print
/-!
Programs with so many orders that the target of a jump does not fit: `$[*][*]…[*][?(true)]`.
-/
namespace JP
open Spec

/-- `$`, `n` times `[*]`, `[?(true)]`. -/
def bigPath (n : Nat) : Path := List.replicate n ⟨.wild, []⟩ ++ [⟨.filter, [.expr (.bool true)]⟩]

/-- Its program. -/
def bigOrders (n : Nat) : List Order :=
  List.replicate n (mkSmall .wild 0) ++
    [mkSmall .for_ (Int64.ofNat (n + 4)), mkSmall .bool 1, mkSmall .filter 1, mkSmall .rep (Int64.ofNat (n + 1))]

theorem codePath_wilds (r : Path) : ∀ (n : Nat) (p : Program),
    codePath (List.replicate n ⟨.wild, []⟩ ++ r) p = codePath r { p with orders := p.orders ++ List.replicate n (mkSmall .wild 0) }
  | 0, p => by simp
  | n + 1, p => by
    show codePath (List.replicate n ⟨.wild, []⟩ ++ r) (asm (mkSmall .wild 0) p) = _
    rw [codePath_wilds r n]
    simp [asm, List.replicate_succ]

theorem compile_big (n : Nat) : compile (bigPath n) = .ok ⟨[], bigOrders n⟩ := by
  unfold compile bigPath
  rw [codePath_wilds]
  generalize hp : ({ (⟨[], []⟩ : Program) with orders := (⟨[], []⟩ : Program).orders ++ List.replicate n (mkSmall .wild 0) } : Program) = p
  show Res.ok (patch p.orders.length (mkSmall .for_ (Int64.ofNat (asm (mkSmall .rep (Int64.ofNat (asm (mkSmall .for_ 0) p).orders.length))
    (asm (mkSmall .filter 1) (asm (mkSmall .bool 1) (asm (mkSmall .for_ 0) p)))).orders.length))
    (asm (mkSmall .rep (Int64.ofNat (asm (mkSmall .for_ 0) p).orders.length))
    (asm (mkSmall .filter 1) (asm (mkSmall .bool 1) (asm (mkSmall .for_ 0) p))))) = _
  subst hp
  simp [bigOrders, asm, patch, List.set_append]

theorem big_length (n : Nat) : (bigOrders n).length = n + 4 := by simp [bigOrders]

theorem big_get {n i : Nat} (h : i < n) : (bigOrders n)[i]? = some (mkSmall .wild 0) := by
  unfold bigOrders
  rw [List.getElem?_append_left (by simpa using h), List.getElem?_replicate, if_pos h]

theorem big_for (n : Nat) : (bigOrders n)[n]? = some (mkSmall .for_ (Int64.ofNat (n + 4))) := by
  unfold bigOrders
  rw [List.getElem?_append_right (by simp)]
  simp

/-- The step `[*]` on a set of no structures. -/
theorem step_wild (env : Env) (oracle : Oracle) (p : Program) (root : V) (s : MState) (h : s.out = some [] ∨ s.out = some [.int 5]) :
    step env oracle p root (mkSmall .wild 0) s = .ok { s with pc := s.pc + 1, tick := s.tick + 1, out := some [] } := by
  rcases h with h | h <;>
  · simp only [step, show Op.ofNat? (mkSmall .wild 0).opNum = some .wild from rfl, exec]
    rw [h]
    rfl

/-- The filter on an empty set. -/
theorem step_for (env : Env) (oracle : Oracle) (p : Program) (root : V) (s : MState) (t : Int64) (hp : (mkSmall .for_ t).pc = some t')
    (ho : Op.ofNat? (mkSmall .for_ t).opNum = some .for_) (h : s.out = some []) :
    step env oracle p root (mkSmall .for_ t) s =
      branch p.orders.length t' { s with pc := s.pc + 1, tick := s.tick + 1 } := by
  simp only [step, ho, exec, hp, looptop, h]
  rfl

/-- It jumps back to the fourth order, for ever. -/
theorem big_loops (env : Env) (oracle : Oracle) :
    run env oracle ⟨[], bigOrders (2 ^ 23)⟩ (.int 5) (.init (.int 5)) = none := by
  refine run_eq_none (fun s => s.pc ≤ 2 ^ 23 ∧ (s.out = some [] ∨ (s.out = some [.int 5] ∧ s.pc = 0))) ?_ ⟨Nat.zero_le _, .inr ⟨rfl, rfl⟩⟩
  rintro s ⟨h1, h2⟩
  rcases Nat.lt_or_ge s.pc (2 ^ 23) with hlt | hge
  · exact ⟨_, big_get hlt, _, step_wild env oracle _ _ s (by rcases h2 with h | ⟨h, _⟩ <;> simp [h]), hlt, .inl rfl⟩
  · have hpc : s.pc = 2 ^ 23 := Nat.le_antisymm h1 hge
    have ho : s.out = some [] := by
      rcases h2 with h | ⟨_, h⟩
      · exact h
      · rw [hpc] at h; simp at h
    refine ⟨_, by rw [hpc]; exact big_for _, { s with pc := 4, tick := s.tick + 1 }, ?_, by simp, .inl ho⟩
    rw [step_for (t' := 4) env oracle _ _ s _ (by decide) (by decide) ho]
    unfold branch
    rw [if_neg]
    · rfl
    · rw [big_length]
      decide

/-- It jumps to a negative number. -/
theorem big_panics (env : Env) (oracle : Oracle) :
    run env oracle ⟨[], bigOrders (2 ^ 22)⟩ (.int 5) (.init (.int 5)) = some (.panic "branch pc out of range") := by
  have key : ∀ d (s : MState), s.pc + d = 2 ^ 22 → s.out = some [] ∨ (s.out = some [.int 5] ∧ 0 < d) →
      runFuel env oracle ⟨[], bigOrders (2 ^ 22)⟩ (.int 5) (d + 1) s = some (.panic "branch pc out of range") := by
    intro d
    induction d with
    | zero =>
      intro s hpc ho
      have ho : s.out = some [] := by
        rcases ho with h | ⟨_, h⟩
        · exact h
        · cases h
      have hpc : s.pc = 2 ^ 22 := hpc
      unfold runFuel
      rw [show (⟨[], bigOrders (2 ^ 22)⟩ : Program).orders[s.pc]? = some (mkSmall .for_ (Int64.ofNat (2 ^ 22 + 4))) by rw [hpc]; exact big_for _]
      simp only
      rw [step_for (t' := -4194300) env oracle _ _ s _ (by decide) (by decide) ho]
      rfl
    | succ d ih =>
      intro s hpc ho
      unfold runFuel
      rw [show (⟨[], bigOrders (2 ^ 22)⟩ : Program).orders[s.pc]? = some (mkSmall .wild 0) from big_get (by omega)]
      simp only
      rw [step_wild env oracle _ _ s (by rcases ho with h | ⟨h, _⟩ <;> simp [h])]
      exact ih _ (by simp only; omega) (.inl rfl)
  exact run_of_runFuel _ _ (key (2 ^ 22) (.init (.int 5)) (by simp [MState.init]) (.inr ⟨rfl, by decide⟩))

end JP
