import Verif.Proof.Slim
import Verif.Props.Locate
import Verif.Props.Whole
/-!
C85: when an evaluation gives exactly the same results in every run.
-/
namespace JP
open Spec

variable (env : Env)

/-! ### C85 When results are the same in every run -/

/-- Paths of names, indices, slices, unions and computed keys, without `keys()`: whatever the orders of map iteration,
the results are the same and in the same order, or the error is the same. -/
theorem C85_straight (oracle oracle' : Oracle) (p : JSONPath) (q : Path) (h : IsCompiled env p q) (hs : Straight q) (hk : Path.NoKeys q) (d : V) :
    Eval env oracle p d = Eval env oracle' p d := by
  rw [h.eval, h.eval]
  congr 1
  have := evalSteps_straight (env := env) (oracle := oracle) (oracle' := oracle') (root := d) q h.wf hk hs (some [d]) 0 0
  have e : ∀ o : Oracle, evalPath env o d q = (do let out ← dropT (evalSteps env o d q (some [d]) 0); .ok (some out.elems)) := by
    intro o
    unfold evalPath dropT
    cases evalSteps env o d q (some [d]) 0 <;> rfl
  rw [e, e, this]

/-- `$.a[1:,0]`. -/
example (oracle oracle' : Oracle) := C85_straight Ex.env oracle oracle' _ [⟨.member, [.name (b! "a")]⟩, ⟨.union, [.slice ⟨some (.int 1), none, none⟩, .int 0]⟩]
  ⟨⟨b! "$.a[1:,0]", rfl, rfl⟩, by decide⟩ (by intro s hs; simp at hs; rcases hs with rfl | rfl <;> simp)
  (by intro s hs e he; simp at hs; rcases hs with rfl | rfl <;> simp at he) Ex.doc

/-- All paths, on documents whose objects have at most one member. -/
theorem C85_slim (oracle oracle' : Oracle) (hv : oracle.Valid) (hv' : oracle'.Valid) (p : JSONPath) (q : Path) (h : IsCompiled env p q) (d : V)
    (hd : d.WF) (hs : Slim d) : Eval env oracle p d = Eval env oracle' p d := by
  rw [h.eval, h.eval]
  congr 1
  unfold evalPath
  rw [evalSteps_same_slim hv hv' hs hd q h.wf (some [d]) 0 (by intro v hv; simp [GoSlice.elems] at hv; subst hv; exact .inl .root)]

/-- `$..[?(keys(@))]` on `[{"a": [1]}, 2]`. -/
example (oracle oracle' : Oracle) (hv : oracle.Valid) (hv' : oracle'.Valid) (p : JSONPath) (q : Path) (h : IsCompiled Ex.env p q) :=
  C85_slim Ex.env oracle oracle' hv hv' p q h (.arr [.obj [(b! "a", .arr [.int 1])], .int 2]) (by simp [V.WF, WFs, WFm]) (by
    have ha : Slim (.arr [.int 1]) := .arr (by intro x hx; simp at hx; subst hx; exact .int _)
    have ho : Slim (.obj [(b! "a", .arr [.int 1])]) := by
      intro kvs hk
      rcases desc_obj hk with hk | ⟨k, x, h1, h2⟩
      · cases hk; simp
      · simp only [List.mem_singleton, Prod.mk.injEq] at h1; rw [h1.2] at h2; exact ha kvs h2
    refine .arr ?_
    intro x hx
    simp at hx
    rcases hx with rfl | rfl
    · exact ho
    · exact .int _)

/-- Without either condition: the same results in every run. -/
def SameEveryRun : Prop :=
  ∀ (oracle oracle' : Oracle), oracle.Valid → oracle'.Valid → ∀ (p : JSONPath) (q : Path), IsCompiled env p q → ∀ (d : V), d.WF →
    Eval env oracle p d = Eval env oracle' p d

/-- A single object with two members is enough to make a difference, to each kind of step that the first condition excludes. -/
theorem C85_order_matters : ¬ SameEveryRun env ∧
    ∀ (text : Bytes) (q : Path), (text, q) ∈ [(b! "$.*", [⟨.wild, []⟩]), (b! "$[?(true)]", [⟨.filter, [.expr (.bool true)]⟩]), (b! "$..*", [⟨.nestWild, []⟩])] →
      ∃ p, Compile env text = .ok p ∧ Eval env Oracle.id p (.obj [(b! "a", .int 1), (b! "b", .int 2)]) = some (.ok (some [.int 1, .int 2])) ∧
        Eval env Oracle.reverse p (.obj [(b! "a", .int 1), (b! "b", .int 2)]) = some (.ok (some [.int 2, .int 1])) := by
  have key : ∀ (text : Bytes) (q : Path), (text, q) ∈ [(b! "$.*", [⟨.wild, []⟩]), (b! "$[?(true)]", [⟨.filter, [.expr (.bool true)]⟩]), (b! "$..*", [⟨.nestWild, []⟩])] →
      ∃ p, Compile env text = .ok p ∧ Eval env Oracle.id p (.obj [(b! "a", .int 1), (b! "b", .int 2)]) = some (.ok (some [.int 1, .int 2])) ∧
        Eval env Oracle.reverse p (.obj [(b! "a", .int 1), (b! "b", .int 2)]) = some (.ok (some [.int 2, .int 1])) := by
    intro text q h
    simp only [List.mem_cons, List.not_mem_nil, or_false, Prod.mk.injEq] at h
    rcases h with ⟨rfl, rfl⟩ | ⟨rfl, rfl⟩ | ⟨rfl, rfl⟩ <;> exact ⟨_, rfl, run_of_runFuel 20 _ rfl, run_of_runFuel 20 _ rfl⟩
  refine ⟨fun h => ?_, key⟩
  have := h Oracle.id Oracle.reverse Oracle.id_valid Oracle.reverse_valid _ [⟨.wild, []⟩]
    (⟨⟨b! "$.*", rfl, rfl⟩, by decide⟩ : IsCompiled env _ _) (.obj [(b! "a", .int 1), (b! "b", .int 2)]) (by simp [V.WF, WFm])
  obtain ⟨p, h1, h2, h3⟩ := key (b! "$.*") [⟨.wild, []⟩] (by simp)
  cases h1
  rw [h2, h3] at this
  simp at this

end JP
