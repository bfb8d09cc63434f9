import Verif.Proof.Goroutines
import Verif.Props.Conc
/-!
C94: how many goroutines an evaluation starts, and how many of them there are at a time.
-/
namespace JP
open JP.Conc JP.Spec

variable {env : Env} {grow : Nat → Nat}

/-- At any time, whatever else is running, at most one goroutine that the evaluation has started has not ended. -/
theorem C94_one (text : Bytes) (ht : text.length ≤ 3 * 2 ^ 20) (p : JSONPath) (hp : Compile env text = .ok p) (v : V)
    (oracle : Oracle) (e : Nat) (z : Sys) (E : Conc.Eval) (hz : History env grow e p.prog v oracle z)
    (hE : z.evals e = some E) (c d : Nat) (hc : E.Open c) (hd : E.Open d) : c = d :=
  history_one ht hp hz hE hc hd

/-- One that has not ended (and that never will: C19). -/
example : ∃ p z E c, Compile Ex.env (b! "$[?(@ in 2)]") = .ok p ∧
    History Ex.env id 1 p.prog (.arr [.int 1, .int 2]) Oracle.id z ∧ z.evals 1 = some E ∧ E.Open c := by
  obtain ⟨p, hp, hv⟩ : ∃ p, Compile Ex.env (b! "$[?(@ in 2)]") = .ok p ∧
      JP.Eval Ex.env Oracle.id p (.arr [.int 1, .int 2]) = some (.err (.inRight .in_ (.int 2))) :=
    ⟨_, rfl, run_of_runFuel 30 _ rfl⟩
  obtain ⟨z, E, h1, h2, h3⟩ := C17_history Ex.env id p _ _ _ hv
  obtain ⟨-, c, P, k1, k2⟩ := C19_error_leaks Ex.env id p hp Oracle.id 1 z E h1 h2 h3.done
  obtain ⟨E', P', m1, m2, m3⟩ := k2 z (.refl z)
  exact ⟨p, z, E', c, hp, h1, m1, P', m2, m3⟩

/-- It is the one that was started last: those before it have ended by the time it is started. -/
theorem C94_last (text : Bytes) (ht : text.length ≤ 3 * 2 ^ 20) (p : JSONPath) (hp : Compile env text = .ok p) (v : V)
    (oracle : Oracle) (e : Nat) (z : Sys) (E : Conc.Eval) (hz : History env grow e p.prog v oracle z)
    (hE : z.evals e = some E) (c : Nat) (hc : E.Open c) : c + 1 = E.goroutines :=
  history_last ht hp hz E hE c hc

/-- In all, an evaluation starts at most one for each filter and each step after `..` of the path, however many values there
are to look at. -/
theorem C94_count (text : Bytes) (ht : text.length ≤ 3 * 2 ^ 20) (p : JSONPath) (hp : Compile env text = .ok p) (path : Path)
    (hq : parsePath env text = .ok path) (v : V) (oracle : Oracle) (e : Nat) (z : Sys) (E : Conc.Eval)
    (hz : History env grow e p.prog v oracle z) (hE : z.evals e = some E) : E.goroutines ≤ loopSteps path := by
  obtain ⟨T, live, h1, _⟩ := history_held hz hE
  rw [← compile_loopsIn hp hq]
  exact (h1.bounds hp (Compile_small hp ht)).1

/-- So without filters and `..` there are none. -/
theorem C94_none (text : Bytes) (ht : text.length ≤ 3 * 2 ^ 20) (p : JSONPath) (hp : Compile env text = .ok p) (path : Path)
    (hq : parsePath env text = .ok path) (hl : ∀ s ∈ path, oneByOne s = false) (v : V) (oracle : Oracle) (e : Nat) (z : Sys)
    (E : Conc.Eval) (hz : History env grow e p.prog v oracle z) (hE : z.evals e = some E) : E.goroutines = 0 := by
  have h1 := C94_count text ht p hp path hq v oracle e z E hz hE
  have h2 : path.filter oneByOne = [] := List.filter_eq_nil_iff.2 fun s hs => by simp [hl s hs]
  rw [loopSteps, h2] at h1
  simpa using h1

/-- The bound is met: a path with two filters, for which two goroutines were started by the time that it returned. -/
theorem C94_count_exact : ∃ text p path z E, Compile Ex.env text = .ok p ∧ parsePath Ex.env text = .ok path ∧
    History Ex.env id 1 p.prog (.arr [.arr [.int 1, .int 2]]) Oracle.id z ∧ z.evals 1 = some E ∧ loopSteps path = 2 ∧
    E.goroutines = 2 := by
  obtain ⟨p, path, hp, hq, hl, hv, h1, h2, h3⟩ : ∃ p path, Compile Ex.env (b! "$[?(@)][?(@)]") = .ok p ∧
      parsePath Ex.env (b! "$[?(@)][?(@)]") = .ok path ∧ loopSteps path = 2 ∧
      JP.Eval Ex.env Oracle.id p (.arr [.arr [.int 1, .int 2]]) = some (.ok (some [.int 1, .int 2])) ∧
      (nth Ex.env Oracle.id p.prog (.arr [.arr [.int 1, .int 2]]) 11).isSome = true ∧
      nth Ex.env Oracle.id p.prog (.arr [.arr [.int 1, .int 2]]) 12 = none ∧
      begun Ex.env Oracle.id p.prog (.arr [.arr [.int 1, .int 2]]) 11 = 2 :=
    ⟨_, _, rfl, rfl, rfl, run_of_runFuel 30 _ rfl, rfl, rfl, rfl⟩
  obtain ⟨z, E, k1, k2, k3⟩ := C17_history Ex.env id p _ _ _ hv
  exact ⟨_, p, path, z, E, hp, hq, k1, k2, hl, by
    rw [← h3]
    exact returned_begun k1 k2 k3.done (by intro h; rw [h] at h1; cases h1) h2⟩

end JP
