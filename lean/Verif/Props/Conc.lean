import Verif.Proof.Conc.History
import Verif.Props.Core
/-!
Goroutines, channels and shared memory: C17, C18, C19, C37, C38.

`Verif/Model/Conc.lean` is the machine with memory and goroutines made explicit.  A `History` is any sequence of steps, each
of one goroutine (or of two that meet on a channel), in which the caller has built documents and programs and called `Eval`
any number of times, also while other calls have not returned.
-/
namespace JP.Conc
open JP (Compile JSONPath)

variable (env : Env) (grow : Nat → Nat)

/-! ### C17 Goroutine scheduling does not change the result -/

/-- An evaluation that has returned has returned what the sequential machine of `Machine.lean` comes to: whatever the
schedule. -/
theorem C17_result_fixed (p : JSONPath) (v : V) (oracle : Oracle) (e : Nat) (z : Sys) (E : Eval)
    (hz : History env grow e p.prog v oracle z) (hE : z.evals e = some E) (hd : E.Done) :
    ∃ res, Returned z.heap E res ∧ JP.Eval env oracle p v = some res := by
  obtain ⟨F, G, E', hi, hE', rfl, hp, rfl⟩ := hz.inv
  rw [hE] at hE'
  cases hE'
  have := (hi.2.2 e E hE).2.returned hd
  rw [hp] at this
  exact this

/-- No deadlock: an evaluation that has not returned can always take a step, by itself or with its own producers. -/
theorem C17_no_deadlock (z : Sys) (hz : Steps env grow Sys.empty z) (e : Nat) (E : Eval) (hE : z.evals e = some E)
    (hd : ¬E.Done) : ∃ w, EStep env grow e z w := by
  obtain ⟨F, G, hi⟩ := inv_reachable hz
  obtain ⟨h', E', h⟩ := progress (grow := grow) (hi.2.2 e E hE).2 hd
  exact ⟨_, E, E', h', hE, h, rfl⟩

/-- No livelock: if the sequential machine comes to an end, then in every infinite run in which the goroutines of the
evaluation are given turns for as long as it has not returned, it returns. -/
theorem C17_returns (p : JSONPath) (v : V) (oracle : Oracle) (e : Nat) (res : Res RErr GoSlice)
    (hv : JP.Eval env oracle p v = some res) (σ : Nat → Sys) (h0 : History env grow e p.prog v oracle (σ 0))
    (hσ : ∀ n, Step env grow (σ n) (σ (n + 1)))
    (hfair : ∀ n E, (σ n).evals e = some E → ¬E.Done → ∃ m, n ≤ m ∧ EStep env grow e (σ m) (σ (m + 1))) :
    ∃ n E, (σ n).evals e = some E ∧ E.Done ∧ Returned (σ n).heap E res := by
  have steps : ∀ n, History env grow e p.prog v oracle (σ n) := by
    intro n
    induction n with
    | zero => exact h0
    | succ n ih => exact ih.later (.one (hσ n))
  by_cases hx : ∃ n E, (σ n).evals e = some E ∧ E.Done
  · obtain ⟨n, E, hE, hd⟩ := hx
    obtain ⟨r, h1, h2⟩ := C17_result_fixed env grow p v oracle e _ E (steps n) hE hd
    rw [hv] at h2
    cases h2
    exact ⟨n, E, hE, hd, h1⟩
  · exfalso
    obtain ⟨F, G, E, hi, hE, rfl, hp, rfl⟩ := h0.inv
    refine no_infinite (acc_inv (hi.2.2 e E hE).2 (r := res) (by rw [hp]; exact hv)) σ hσ (fun n => ?_) 0 F G E hi hE rfl rfl rfl rfl
    obtain ⟨_, _, E', _, hE', _⟩ := (steps n).inv
    exact hfair n E' hE' (fun hd => hx ⟨n, E', hE', hd⟩)

/-- And from every state it can be brought to its end. -/
theorem C17_can_return (p : JSONPath) (v : V) (oracle : Oracle) (e : Nat) (res : Res RErr GoSlice)
    (hv : JP.Eval env oracle p v = some res) (y : Sys) (hy : History env grow e p.prog v oracle y) :
    ∃ z E, Steps env grow y z ∧ z.evals e = some E ∧ Returned z.heap E res := by
  obtain ⟨F, G, E, hi, hE, rfl, hp, rfl⟩ := hy.inv
  obtain ⟨z, E', h1, h2, h3, _, _, h6⟩ := finishes (grow := grow) (acc_inv (hi.2.2 e E hE).2 (r := res) (by rw [hp]; exact hv))
    (by rw [hp]; exact hv) y F G E hi hE rfl rfl rfl rfl
  obtain ⟨r, k1, k2⟩ := C17_result_fixed env grow p _ _ e z E' (hy.later h1) h2 h3
  rw [hv] at k2
  cases k2
  exact ⟨z, E', h1, h2, k1⟩

/-- There is such a history, for every program and every document. -/
theorem C17_history (p : JSONPath) (v : V) (oracle : Oracle) (res : Res RErr GoSlice) (hv : JP.Eval env oracle p v = some res) :
    ∃ z E, History env grow 1 p.prog v oracle z ∧ z.evals 1 = some E ∧ Returned z.heap E res := by
  obtain ⟨x, y, prog, root, h1, h2, h3, h4, h5⟩ := can_call env grow 1 (by decide) p.prog v oracle Sys.empty rfl
  have hy : History env grow 1 p.prog v oracle y := ⟨x, y, prog, root, h1, h3, h4, h5, .refl y⟩
  obtain ⟨z, E, k1, k2, k3⟩ := C17_can_return env grow p v oracle 1 res hv y hy
  exact ⟨z, E, hy.later k1, k2, k3⟩

/-- And from every state of a history a schedule that is fair. -/
theorem C17_fair_schedule (p : JSONPath) (v : V) (oracle : Oracle) (e : Nat) (y : Sys) (hy : History env grow e p.prog v oracle y) :
    ∃ σ : Nat → Sys, σ 0 = y ∧ (∀ n, Step env grow (σ n) (σ (n + 1))) ∧
      (∀ n E, (σ n).evals e = some E → ¬E.Done → ∃ m, n ≤ m ∧ EStep env grow e (σ m) (σ (m + 1))) := by
  classical
  let next : Sys → Sys := fun y => if h : ∃ w, EStep env grow e y w then h.choose else ⟨y.heap.alloc 0 (.cells []), y.evals⟩
  have hnext : ∀ y, Step env grow y (next y) := by
    intro y
    by_cases h : ∃ w, EStep env grow e y w
    · simp only [next, h, dite_true]
      obtain ⟨E, E', h', k1, k2, k3⟩ := h.choose_spec
      rw [k3]
      exact .eval y e E E' h' k1 k2
    · simp only [next, h, dite_false]
      exact .build y _
  let σ : Nat → Sys := fun n => n.rec y (fun _ => next)
  have hσ : ∀ n, σ (n + 1) = next (σ n) := fun _ => rfl
  have hst : ∀ n, Step env grow (σ n) (σ (n + 1)) := fun n => by rw [hσ]; exact hnext _
  have hh : ∀ n, Steps env grow Sys.empty (σ n) := by
    intro n
    induction n with
    | zero => exact hy.steps
    | succ n ih => exact ih.trans (.one (hst n))
  refine ⟨σ, rfl, hst, fun n E hE hd => ⟨n, Nat.le_refl n, ?_⟩⟩
  have h := C17_no_deadlock env grow (σ n) (hh n) e E hE hd
  rw [hσ]
  simp only [next, h, dite_true]
  exact h.choose_spec

example : ∃ p z E, Compile Ex.env (b! "$..a") = .ok p ∧ History Ex.env id 1 p.prog Ex.doc Oracle.id z ∧ z.evals 1 = some E ∧
    Returned z.heap E (.ok (some [.arr [.int 1, .int 2, .int 3], .null])) := by
  obtain ⟨p, hp, hv⟩ : ∃ p, Compile Ex.env (b! "$..a") = .ok p ∧
      JP.Eval Ex.env Oracle.id p Ex.doc = some (.ok (some [.arr [.int 1, .int 2, .int 3], .null])) := ⟨_, rfl, run_of_runFuel 30 _ rfl⟩
  obtain ⟨z, E, h1, h2, h3⟩ := C17_history Ex.env id p _ _ _ hv
  exact ⟨p, z, E, hp, h1, h2, h3⟩

/-- Put together for a compiled path of at most 3 MB: every call of `Eval` returns, under every fair schedule, and
what it returns does not depend on the schedule. -/
theorem C17_schedule_irrelevant (text : Bytes) (ht : text.length ≤ 3 * 2 ^ 20) (p : JSONPath)
    (hp : Compile env text = .ok p) (v : V) (hwf : v.WF) (oracle : Oracle) :
    ∃ res, ∀ (e : Nat) (σ : Nat → Sys), History env grow e p.prog v oracle (σ 0) → (∀ n, Step env grow (σ n) (σ (n + 1))) →
      (∀ n E, (σ n).evals e = some E → ¬E.Done → ∃ m, n ≤ m ∧ EStep env grow e (σ m) (σ (m + 1))) →
      ∃ n E, (σ n).evals e = some E ∧ Returned (σ n).heap E res := by
  obtain ⟨res, h1, _⟩ := C02_eval_terminates_text_partial env oracle text ht p hp v hwf
  refine ⟨res, fun e σ h0 hσ hf => ?_⟩
  obtain ⟨n, E, k1, _, k3⟩ := C17_returns env grow p v oracle e res h1 σ h0 hσ hf
  exact ⟨n, E, k1, k3⟩

/-! ### C18 A compiled path may be used concurrently -/

/-- Any call of `Eval` that has returned, in any history, whatever other calls it has been interleaved with, has returned
what any other call with an equal program, an equal document and the same order of map iteration returned, in the same or in
any other history: in particular in one in which it was the only call. -/
theorem C18_as_if_alone (p : JSONPath) (v : V) (oracle : Oracle) (e : Nat) (z : Sys) (E : Eval) (res : Res RErr GoSlice)
    (hz : History env grow e p.prog v oracle z) (hE : z.evals e = some E) (hr : Returned z.heap E res)
    (e' : Nat) (z' : Sys) (E' : Eval) (res' : Res RErr GoSlice)
    (hz' : History env grow e' p.prog v oracle z') (hE' : z'.evals e' = some E') (hr' : Returned z'.heap E' res') :
    res = res' := by
  obtain ⟨r1, h1, h2⟩ := C17_result_fixed env grow p v oracle e z E hz hE hr.done
  obtain ⟨r2, k1, k2⟩ := C17_result_fixed env grow p v oracle e' z' E' hz' hE' hr'.done
  rw [h2] at k2
  cases k2
  exact (hr.unique h1).trans (k1.unique hr')

/-- What a call has returned stays as it is, whatever happens afterwards. -/
theorem C18_results_stay (z w : Sys) (hz : Steps env grow Sys.empty z) (hw : Steps env grow z w) (e : Nat) (E : Eval)
    (res : Res RErr GoSlice) (hE : z.evals e = some E) (hr : Returned z.heap E res) :
    ∃ E', w.evals e = some E' ∧ Returned w.heap E' res := by
  induction hw with
  | refl => exact ⟨E, hE, hr⟩
  | step y w h1 h2 ih =>
    obtain ⟨E1, k1, k2⟩ := ih
    obtain ⟨F, G, hi⟩ := inv_reachable (hz.trans h1)
    obtain ⟨F', G', hK⟩ := inv_step hi h2
    have same : ∀ E2, w.evals e = some E2 → E2.code = E1.code → ∃ E', w.evals e = some E' ∧ Returned w.heap E' res := by
      intro E2 a1 a2
      refine ⟨E2, a1, ?_⟩
      unfold Returned at k2 ⊢
      rw [a2]
      split at k2
      · obtain ⟨r, h3, h4⟩ := k2
        have hd : E1.Done := by unfold Eval.Done; rw [h3]; trivial
        rcases (hi.2.2 e E1 k1).2 with ⟨hn, _⟩ | ⟨_, ch, W, hb, _, hc, _⟩
        · exact absurd hd hn
        · rw [h3] at hc
          obtain ⟨⟨vs, _, h6, _⟩, _⟩ := hc
          cases h4.unique h6
          exact ⟨r, h3, h6.mono (fun _ _ => trivial) hK.frozen⟩
      all_goals exact k2
    cases h2 with
    | build o => exact same E1 k1 rfl
    | call e' he hn prog p hk hp root v hr' oracle =>
      have : e ≠ e' := by rintro rfl; rw [hn] at k1; cases k1
      exact same E1 (by simp [Sys.update, this, k1]) rfl
    | eval e' E2 E' h' hE2 hst =>
      by_cases hee : e = e'
      · subst hee
        rw [k1] at hE2
        cases hE2
        obtain ⟨c, P, P', _, _, rfl⟩ := done_step k2.done hst
        exact same { E1 with prods := E1.prods.set c P' } (by simp [Sys.update]) rfl
      · exact same E1 (by simp [Sys.update, hee, k1]) rfl

/-- No data race: when a goroutine is about to write to an object, the object is the evaluation's own and no other goroutine,
of this or any other evaluation, is about to read it or write to it. -/
theorem C18_no_race (z : Sys) (hz : Steps env grow Sys.empty z) (e : Nat) (E : Eval) (hE : z.evals e = some E) (a : Addr)
    (hw : Writes E.code a) :
    a.owner = e ∧
    (∀ e' E', e' ≠ e → z.evals e' = some E' → ¬Writes E'.code a ∧ ¬Reads z.heap E'.code a) ∧
    (∀ (e' : Nat) E' (c : Nat) P, z.evals e' = some E' → E'.prods[c]? = some P → ¬P.Reads z.heap a) := by
  obtain ⟨F, G, hi⟩ := inv_reachable hz
  obtain ⟨h1, h2⟩ := writes_own (hi.2.2 e E hE).2 hw
  refine ⟨h1, fun e' E' hne hE' => ⟨fun h => ?_, fun h => ?_⟩, fun e' E' c P hE' hP h => ?_⟩
  · exact hne ((writes_own (hi.2.2 e' E' hE').2 h).1.symm.trans h1)
  · rcases reads_mine (hi.2.2 e' E' hE').2 h with h | h
    · exact hne (h.symm.trans h1)
    · exact h2 h
  · exact h2 (prod_reads (hi.2.2 e' E' hE').2 hP h)

/-! ### C19 Eval leaves no goroutine behind -/

/-- Full statement: a goroutine of an evaluation that has returned can still come to its end. -/
def NoGoroutineLeaks : Prop :=
  ∀ (text : Bytes) (p : JSONPath), Compile env text = .ok p → ∀ (v : V), v.WF → ∀ (oracle : Oracle) (e : Nat) (z : Sys) (E : Eval),
    History env grow e p.prog v oracle z → z.evals e = some E → E.Done → ∀ (c : Nat) (P : Producer), E.prods[c]? = some P →
      ∃ w E' P', Steps env grow z w ∧ w.evals e = some E' ∧ E'.prods[c]? = some P' ∧ P'.closed = true

/-- What is left to send when `Eval` of `$[?(@ in 2)]` returns its error. -/
private theorem leak_from (p : JSONPath) (hp : Compile env (b! "$[?(@ in 2)]") = .ok p) (oracle : Oracle) :
    From env oracle p.prog (.arr [.int 1, .int 2]) (.inr (.err (.inRight .in_ (.int 2)))) [[.int 2]] := by
  cases hp
  exact from_of_nth (n := 3) rfl

/-- `Eval` of `$[?(@ in 2)]` on `[1, 2]` returns an error, and leaves behind a goroutine that never ends: there is a
goroutine that it has started and that has not come to its end in any continuation. -/
theorem C19_error_leaks (p : JSONPath) (hp : Compile env (b! "$[?(@ in 2)]") = .ok p) (oracle : Oracle) (e : Nat) (z : Sys)
    (E : Eval) (hz : History env grow e p.prog (.arr [.int 1, .int 2]) oracle z) (hE : z.evals e = some E) (hd : E.Done) :
    Returned z.heap E (.err (.inRight .in_ (.int 2))) ∧
    ∃ (c : Nat) (P : Producer), E.prods[c]? = some P ∧ ∀ w, Steps env grow z w → ∃ (E' : Eval) (P' : Producer), w.evals e = some E' ∧
      E'.prods[c]? = some P' ∧ P'.closed = false := by
  have hf := leak_from env p hp oracle
  obtain ⟨F, G, E0, hi, hE0, rfl, hgp, hgv⟩ := hz.inv
  rw [hE] at hE0
  cases hE0
  have hinv := (hi.2.2 e E hE).2
  rw [hgp, hgv] at hinv
  obtain ⟨res, h1, h2⟩ := hinv.returned hd
  have hrun : run env E.oracle p.prog (.arr [.int 1, .int 2]) (.init (.arr [.int 1, .int 2])) =
      some (.err (.inRight .in_ (.int 2))) := by
    obtain ⟨s, k1, k2, _⟩ := hf
    have k3 := (k1.step s).run
    rw [← k2] at k3
    exact k3
  rw [hrun] at h2
  cases h2
  refine ⟨h1, ?_⟩
  rcases hinv with ⟨hn, _⟩ | ⟨_, ch, W, hb, _, hc, _⟩
  · exact absurd hd hn
  · rw [show E.code = _ from h1] at hc
    have hu := From.unique (hc.1 ▸ hc.2) hf
    obtain ⟨c, hl⟩ : ∃ c, ch.live = [c] := by
      cases hlv : ch.live with
      | nil => rw [hlv] at hu; cases hu
      | cons c cs =>
        cases cs with
        | nil => exact ⟨c, rfl⟩
        | cons d ds => rw [hlv] at hu; simp at hu
    rw [hl] at hu
    simp only [List.map_cons, List.map_nil, List.cons.injEq, and_true] at hu
    have hlt := hb.live c (by rw [hl]; simp)
    have hP := List.getElem?_eq_getElem hlt
    refine ⟨c, _, hP, fun w hw => ?_⟩
    have hr := hb.prods c _ hP
    rw [hu] at hr
    obtain ⟨F', G', E', P', n', _, k2, _, k4, k5⟩ := left_behind hw hi hE hd hP hr
    refine ⟨E', P', k2, k4, ?_⟩
    cases hcl : P'.closed with
    | false => rfl
    | true => cases k5.end_ hcl

/-- So the full statement does not hold. -/
theorem C19_goroutine_leaks : ¬ NoGoroutineLeaks env grow := by
  intro h
  obtain ⟨p, hp⟩ : ∃ p, Compile env (b! "$[?(@ in 2)]") = .ok p := ⟨_, rfl⟩
  have hwf : (V.arr [.int 1, .int 2]).WF := by simp [V.WF, WFs]
  obtain ⟨x, y, prog, root, h1, h2, h3, h4, h5⟩ := can_call env grow 1 (by decide) p.prog (.arr [.int 1, .int 2]) Oracle.id Sys.empty rfl
  have hy : History env grow 1 p.prog (.arr [.int 1, .int 2]) Oracle.id y := ⟨x, y, prog, root, h1, h3, h4, h5, .refl y⟩
  have hv : JP.Eval env Oracle.id p (.arr [.int 1, .int 2]) = some (.err (.inRight .in_ (.int 2))) := by
    cases hp; exact run_of_runFuel 20 _ rfl
  obtain ⟨z, E, k1, k2, k3⟩ := C17_can_return env grow p _ Oracle.id 1 _ hv y hy
  have hz := hy.later k1
  obtain ⟨_, c, P, hP, hw⟩ := C19_error_leaks env grow p hp Oracle.id 1 z E hz k2 k3.done
  obtain ⟨w, E', P', l1, l2, l3, l4⟩ := h _ p hp _ hwf Oracle.id 1 z E hz k2 k3.done c P hP
  obtain ⟨E'', P'', m1, m2, m3⟩ := hw w l1
  rw [l2] at m1
  cases m1
  rw [l3] at m2
  cases m2
  rw [l4] at m3
  cases m3

/-- What holds: an evaluation that returns without an error has no goroutine left, from the moment it returns.  (For paths of
at most 3 MB; missing: those that return an error.) -/
theorem C19_success_no_goroutine_partial (text : Bytes) (ht : text.length ≤ 3 * 2 ^ 20) (p : JSONPath) (hp : Compile env text = .ok p)
    (v : V) (oracle : Oracle) (e : Nat) (z : Sys) (E : Eval) (hz : History env grow e p.prog v oracle z)
    (hE : z.evals e = some E) (vs : List V) (hr : Returned z.heap E (.ok (some vs))) (c : Nat) (P : Producer)
    (hP : E.prods[c]? = some P) : P.closed = true := by
  obtain ⟨F, G, E0, hi, hE0, rfl, hgp, hgv⟩ := hz.inv
  rw [hE] at hE0
  cases hE0
  have hinv := (hi.2.2 e E hE).2
  rw [hgp, hgv] at hinv
  rcases hinv with ⟨hn, _⟩ | ⟨_, ch, W, hb, _, hc, _⟩
  · exact absurd hr.done hn
  · obtain ⟨r, hco, _⟩ := hr
    rw [hco] at hc
    obtain ⟨⟨ws, h1, _⟩, h2⟩ := hc
    rw [h1] at h2
    have hu := Reach.end_ hp (Compile_small hp ht) h2
    have hl : ch.live = [] := by simpa using hu
    exact hb.closed c P hP (by rw [hl]; simp)

/-- And with an error: what the loops that the evaluation was in still had to come decides.  If nothing was to come, every
goroutine can come to its end by itself; if something was to come, there is one that never does. -/
theorem C19_error_exact_partial (p : JSONPath) (v : V) (oracle : Oracle) (e : Nat) (z : Sys) (E : Eval) (x : RErr)
    (hz : History env grow e p.prog v oracle z) (hE : z.evals e = some E) (hr : Returned z.heap E (.err x))
    (todo : List (List V)) (hf : From env oracle p.prog v (.inr (.err x)) todo) :
    ((∀ l ∈ todo, l = []) → ∀ (c : Nat) P, E.prods[c]? = some P →
      ∃ w E' P', Steps env grow z w ∧ w.evals e = some E' ∧ E'.prods[c]? = some P' ∧ P'.closed = true) ∧
    (∀ l ∈ todo, l ≠ [] → ∃ (c : Nat) (P : Producer), E.prods[c]? = some P ∧ ∀ w, Steps env grow z w →
      ∃ (E' : Eval) (P' : Producer), w.evals e = some E' ∧ E'.prods[c]? = some P' ∧ P'.closed = false) := by
  obtain ⟨F, G, E0, hi, hE0, rfl, hgp, hgv⟩ := hz.inv
  rw [hE] at hE0
  cases hE0
  have hinv := (hi.2.2 e E hE).2
  rw [hgp, hgv] at hinv
  rcases hinv with ⟨hn, _⟩ | ⟨_, ch, W, hb, _, hc, _⟩
  · exact absurd hr.done hn
  · rw [show E.code = _ from hr] at hc
    have hu := From.unique (hc.1 ▸ hc.2) hf
    constructor
    · intro hall c P hP
      by_cases hl : c ∈ ch.live
      · have := hb.prods c P hP
        rw [hall (ch.rest c) (by rw [← hu]; exact List.mem_map_of_mem hl)] at this
        exact ends _ hi hE hP this
      · exact ⟨z, E, P, .refl z, hE, hP, hb.closed c P hP hl⟩
    · intro l hl hne
      rw [← hu] at hl
      obtain ⟨c, hc1, rfl⟩ := List.mem_map.1 hl
      have hP := List.getElem?_eq_getElem (hb.live c hc1)
      refine ⟨c, _, hP, fun w hw => ?_⟩
      obtain ⟨F', G', E', P', n', _, k2, _, k4, k5⟩ := left_behind hw hi hE hr.done hP (hb.prods c _ hP)
      refine ⟨E', P', k2, k4, ?_⟩
      cases hcl : P'.closed with
      | false => rfl
      | true => exact absurd (k5.end_ hcl) hne

/-- The error on the last element leaves nothing behind. -/
example : ∃ p z E, Compile Ex.env (b! "$[?(@ in 2)]") = .ok p ∧ History Ex.env id 1 p.prog (.arr [.int 1]) Oracle.id z ∧
    z.evals 1 = some E ∧ Returned z.heap E (.err (.inRight .in_ (.int 2))) ∧
    From Ex.env Oracle.id p.prog (.arr [.int 1]) (.inr (.err (.inRight .in_ (.int 2)))) [[]] := by
  obtain ⟨p, hp, hv, hf⟩ : ∃ p, Compile Ex.env (b! "$[?(@ in 2)]") = .ok p ∧
      JP.Eval Ex.env Oracle.id p (.arr [.int 1]) = some (.err (.inRight .in_ (.int 2))) ∧
      From Ex.env Oracle.id p.prog (.arr [.int 1]) (.inr (.err (.inRight .in_ (.int 2)))) [[]] :=
    ⟨_, rfl, run_of_runFuel 30 _ rfl, from_of_nth (n := 3) rfl⟩
  obtain ⟨z, E, h1, h2, h3⟩ := C17_history Ex.env id p _ _ _ hv
  exact ⟨p, z, E, hp, h1, h2, h3, hf⟩

/-! ### C37 Eval does not modify the document -/

/-- No evaluation ever writes to an array or a map that the document passed to it, or to any other evaluation, consists of;
nor to anything else that the caller has. -/
theorem C37_no_write (z : Sys) (hz : Steps env grow Sys.empty z) (e : Nat) (E : Eval) (hE : z.evals e = some E) (a : Addr)
    (hw : Writes E.code a) : (∀ e' E', z.evals e' = some E' → ¬Within z.heap E'.root a) ∧ ¬z.Known a := by
  obtain ⟨F, G, hi⟩ := inv_reachable hz
  obtain ⟨h1, h2⟩ := writes_own (hi.2.2 e E hE).2 hw
  constructor
  · intro e' E' hE' hin
    have : Rep F z.heap E'.root (G e').v := by
      rcases (hi.2.2 e' E' hE').2 with ⟨_, ch, W, hb, _⟩ | ⟨_, ch, W, hb, _⟩ <;> exact hb.root
    exact h2 (hin.of_rep this)
  · rintro (h0 | ⟨E', hE', hd⟩)
    · exact (hi.2.2 e E hE).1 (h1.symm.trans h0)
    · rw [h1, hE] at hE'
      cases hE'
      obtain ⟨i, v, k, hc⟩ := hw
      unfold Eval.Done at hd
      rw [hc] at hd
      exact hd

/-- What the caller has built, or has been given as a result, stays as it is. -/
theorem C37_unchanged (x y : Sys) (hx : Steps env grow Sys.empty x) (hy : Steps env grow x y) (a : Addr) (hk : x.Known a)
    (ha : x.heap.get a ≠ none) : y.heap.get a = x.heap.get a := by
  obtain ⟨F, G, hi⟩ := inv_reachable hx
  obtain ⟨_, _, _, _, hf, _⟩ := inv_steps hi hy
  exact hf a (hi.known hk ha)

/-- So a document stays the document it was. -/
theorem C37_document_unchanged (x y : Sys) (hx : Steps env grow Sys.empty x) (hy : Steps env grow x y) (root : HV) (v : V)
    (hr : Rep x.Known x.heap root v) : Rep y.Known y.heap root v :=
  hr.got.mono (fun _ h => known_stays hy h.1) (fun a h => C37_unchanged env grow x y hx hy a h.1 h.2)

/-- The array that an evaluation returns is its own: no part of the document. -/
theorem C37_result_is_new (p : JSONPath) (v : V) (oracle : Oracle) (e : Nat) (z : Sys) (E : Eval)
    (hz : History env grow e p.prog v oracle z) (hE : z.evals e = some E) (r : SRef) (hr : E.code = .ret (.ok (.halt r))) :
    r.arr.owner = e ∧ ¬Within z.heap E.root r.arr := by
  obtain ⟨x, y, prog, root, h1, h2, h3, h4, h5⟩ := hz
  have hst : Step env grow x y := h4.step h2 h3
  obtain ⟨he, hn, hk, rfl⟩ := h4
  obtain ⟨F, G, hi⟩ := inv_reachable h1
  obtain ⟨μ, hK⟩ := inv_call hi he hn hk h2 h3 oracle
  obtain ⟨F', G', hi', _, _, ht⟩ := inv_steps hK.inv h5
  obtain ⟨E', k1, _, k3, _⟩ := ht e ⟨prog, root, oracle, begin root, []⟩ (by simp [Sys.update, called])
  rw [hE] at k1
  cases k1
  have hd : E.Done := by unfold Eval.Done; rw [hr]; trivial
  have ho : r.arr.owner = e := by
    rcases (hi'.2.2 e E hE).2 with ⟨hnd, _⟩ | ⟨_, ch, W, hb, _, hc, _⟩
    · exact absurd hd hnd
    · rw [hr] at hc
      obtain ⟨⟨_, _, _, h⟩, _⟩ := hc
      exact h
  refine ⟨ho, fun hin => ?_⟩
  rw [k3] at hin
  have hrep : Rep x.Known z.heap root v := h3.got.mono (fun _ h => h.1)
    (fun a h => C37_unchanged env grow x z h1 ((Steps.one hst).trans h5) a h.1 h.2)
  rcases hin.of_rep hrep with h0 | ⟨E', hE', _⟩
  · exact he (ho.symm.trans h0)
  · rw [ho, hn] at hE'
    cases hE'

/-! ### C38 Eval is repeatable -/

/-- Two calls with the same program and the same document (as objects in memory) and the same order of map iteration return
equal results, whatever happened in between and whatever else is going on. -/
theorem C38_repeatable (x y x' y' z : Sys) (e e' : Nat) (prog : Addr) (root : HV) (oracle : Oracle) (p : Program) (v : V)
    (h1 : Steps env grow Sys.empty x) (hp : x.heap.get prog = some (.prog p)) (hr : Rep x.Known x.heap root v)
    (h2 : CallAt x y e prog root oracle) (h3 : Steps env grow y x') (h4 : CallAt x' y' e' prog root oracle)
    (h5 : Steps env grow y' z) (E E' : Eval) (hE : z.evals e = some E) (hE' : z.evals e' = some E')
    (res res' : Res RErr GoSlice) (hres : Returned z.heap E res) (hres' : Returned z.heap E' res') : res = res' := by
  have hs : Steps env grow x x' := (Steps.one (h2.step hp hr)).trans h3
  have hp' : x'.heap.get prog = some (.prog p) := by
    rw [C37_unchanged env grow x x' h1 hs prog h2.2.2.1 (by rw [hp]; simp)]
    exact hp
  have hr' := C37_document_unchanged env grow x x' h1 hs root v hr
  exact C18_as_if_alone env grow ⟨[], p⟩ v oracle e z E res
    ⟨x, y, prog, root, h1, hp, hr, h2, h3.trans ((Steps.one (h4.step hp' hr')).trans h5)⟩ hE hres e' z E' res'
    ⟨x', y', prog, root, h1.trans hs, hp', hr', h4, h5⟩ hE' hres'

/-- A compiled path does not change. -/
theorem C38_program_unchanged (x y : Sys) (hx : Steps env grow Sys.empty x) (hy : Steps env grow x y) (prog : Addr) (p : Program)
    (hk : x.Known prog) (hp : x.heap.get prog = some (.prog p)) : y.heap.get prog = some (.prog p) := by
  rw [C37_unchanged env grow x y hx hy prog hk (by rw [hp]; simp)]
  exact hp

/-! ### Examples

Two evaluations of `$..a`, both called before either has taken a step, with the same document; both return. -/

private theorem ex_two : ∃ (p : JSONPath) (x y x' y' z : Sys) (prog : Addr) (root : HV) (E E' : Eval),
    Compile Ex.env (b! "$..a") = .ok p ∧ Steps Ex.env id Sys.empty x ∧ x.heap.get prog = some (.prog p.prog) ∧
    Rep x.Known x.heap root Ex.doc ∧ CallAt x y 1 prog root Oracle.id ∧ Steps Ex.env id y x' ∧ CallAt x' y' 2 prog root Oracle.id ∧
    Steps Ex.env id y' z ∧ z.evals 1 = some E ∧ z.evals 2 = some E' ∧
    Returned z.heap E (.ok (some [.arr [.int 1, .int 2, .int 3], .null])) ∧
    Returned z.heap E' (.ok (some [.arr [.int 1, .int 2, .int 3], .null])) := by
  obtain ⟨p, hp, hv⟩ : ∃ p, Compile Ex.env (b! "$..a") = .ok p ∧
      JP.Eval Ex.env Oracle.id p Ex.doc = some (.ok (some [.arr [.int 1, .int 2, .int 3], .null])) := ⟨_, rfl, run_of_runFuel 30 _ rfl⟩
  obtain ⟨x, y, prog, root, h1, h2, h3, h4, h5⟩ := can_call Ex.env id 1 (by decide) p.prog Ex.doc Oracle.id Sys.empty rfl
  have hst : Step Ex.env id x y := h5.step h3 h4
  have hxy : Steps Ex.env id x y := .one hst
  have h3' := C38_program_unchanged Ex.env id x y h1 hxy prog _ h5.2.2.1 h3
  have h4' := C37_document_unchanged Ex.env id x y h1 hxy root _ h4
  have hc2 : CallAt y (y.update 2 ⟨prog, root, Oracle.id, begin root, []⟩ y.heap) 2 prog root Oracle.id :=
    ⟨by decide, by rw [h5.2.2.2]; simp [Sys.update, h2, Sys.empty], known_stays hxy h5.2.2.1, rfl⟩
  have hst2 : Step Ex.env id y _ := hc2.step h3' h4'
  have hist1 : History Ex.env id 1 p.prog Ex.doc Oracle.id _ := ⟨x, y, prog, root, h1, h3, h4, h5, .one hst2⟩
  have hist2 : History Ex.env id 2 p.prog Ex.doc Oracle.id _ := ⟨y, _, prog, root, h1.trans hxy, h3', h4', hc2, .refl _⟩
  obtain ⟨z1, E1, k1, k2, k3⟩ := C17_can_return Ex.env id p _ Oracle.id 1 _ hv _ hist1
  obtain ⟨z2, E2, l1, l2, l3⟩ := C17_can_return Ex.env id p _ Oracle.id 2 _ hv _ (hist2.later k1)
  obtain ⟨E1', m1, m2⟩ := C18_results_stay Ex.env id z1 z2 (hist1.steps.trans k1) l1 1 E1 _ k2 k3
  exact ⟨p, x, y, y, _, z2, prog, root, E1', E2, hp, h1, h3, h4, h5, .refl y, hc2, k1.trans l1, m1, l2, m2, l3⟩

/-- For C17_result_fixed, C17_can_return and C18_as_if_alone: both calls have histories that end in the same state. -/
example : ∃ p z E E', Compile Ex.env (b! "$..a") = .ok p ∧ History Ex.env id 1 p.prog Ex.doc Oracle.id z ∧ z.evals 1 = some E ∧
    E.Done ∧ History Ex.env id 2 p.prog Ex.doc Oracle.id z ∧ z.evals 2 = some E' ∧ E'.Done := by
  obtain ⟨p, x, y, x', y', z, prog, root, E, E', hp, h1, h2, h3, h4, h5, h6, h7, h8, h9, h10, h11⟩ := ex_two
  have hs : Steps Ex.env id x x' := (Steps.one (h4.step h2 h3)).trans h5
  have h2' := C38_program_unchanged Ex.env id x x' h1 hs prog _ h4.2.2.1 h2
  have h3' := C37_document_unchanged Ex.env id x x' h1 hs root _ h3
  exact ⟨p, z, E, E', hp, ⟨x, y, prog, root, h1, h2, h3, h4, h5.trans ((Steps.one (h6.step h2' h3')).trans h7)⟩, h8, h10.done,
    ⟨x', y', prog, root, h1.trans hs, h2', h3', h6, h7⟩, h9, h11.done⟩

/-- For C17_returns and C17_schedule_irrelevant: a fair schedule, and what it comes to. -/
example : ∃ p, ∃ σ : Nat → Sys, Compile Ex.env (b! "$..a") = .ok p ∧ ∃ n E, (σ n).evals 1 = some E ∧
    Returned (σ n).heap E (.ok (some [.arr [.int 1, .int 2, .int 3], .null])) := by
  obtain ⟨p, hp, hv⟩ : ∃ p, Compile Ex.env (b! "$..a") = .ok p ∧
      JP.Eval Ex.env Oracle.id p Ex.doc = some (.ok (some [.arr [.int 1, .int 2, .int 3], .null])) := ⟨_, rfl, run_of_runFuel 30 _ rfl⟩
  obtain ⟨x, y, prog, root, h1, h2, h3, h4, h5⟩ := can_call Ex.env id 1 (by decide) p.prog Ex.doc Oracle.id Sys.empty rfl
  have hy : History Ex.env id 1 p.prog Ex.doc Oracle.id y := ⟨x, y, prog, root, h1, h3, h4, h5, .refl y⟩
  obtain ⟨σ, k0, k1, k2⟩ := C17_fair_schedule Ex.env id p Ex.doc Oracle.id 1 y hy
  obtain ⟨n, E, l1, _, l3⟩ := C17_returns Ex.env id p Ex.doc Oracle.id 1 _ hv σ (by rw [k0]; exact hy) k1 k2
  exact ⟨p, σ, hp, n, E, l1, l3⟩

/-- For C17_no_deadlock: a call that has not returned. -/
example : ∃ z E, Steps Ex.env id Sys.empty z ∧ z.evals 1 = some E ∧ ¬E.Done := by
  obtain ⟨x, y, prog, root, h1, h2, h3, h4, h5⟩ := can_call Ex.env id 1 (by decide) ⟨[], []⟩ Ex.doc Oracle.id Sys.empty rfl
  refine ⟨y, ⟨prog, root, Oracle.id, begin root, []⟩, h1.trans (.one (h5.step h3 h4)), by rw [h5.2.2.2]; simp [Sys.update], ?_⟩
  exact fun h => h

/-- For C18_results_stay, C37_unchanged, C37_document_unchanged, C38_repeatable and C38_program_unchanged: the two calls. -/
example : ∃ (p : JSONPath) (x y x' y' z : Sys) (prog : Addr) (root : HV) (E E' : Eval) (res : Res RErr GoSlice),
    Steps Ex.env id Sys.empty x ∧ x.Known prog ∧ x.heap.get prog = some (.prog p.prog) ∧ Rep x.Known x.heap root Ex.doc ∧
    CallAt x y 1 prog root Oracle.id ∧ Steps Ex.env id y x' ∧ CallAt x' y' 2 prog root Oracle.id ∧ Steps Ex.env id y' z ∧
    z.evals 1 = some E ∧ z.evals 2 = some E' ∧ Returned z.heap E res ∧ Returned z.heap E' res := by
  obtain ⟨p, x, y, x', y', z, prog, root, E, E', _, h1, h2, h3, h4, h5, h6, h7, h8, h9, h10, h11⟩ := ex_two
  exact ⟨p, x, y, x', y', z, prog, root, E, E', _, h1, h4.2.2.1, h2, h3, h4, h5, h6, h7, h8, h9, h10, h11⟩

/-- For C19_error_leaks: the call that leaks. -/
example : ∃ p z E, Compile Ex.env (b! "$[?(@ in 2)]") = .ok p ∧ History Ex.env id 1 p.prog (.arr [.int 1, .int 2]) Oracle.id z ∧
    z.evals 1 = some E ∧ E.Done := by
  obtain ⟨p, hp, hv⟩ : ∃ p, Compile Ex.env (b! "$[?(@ in 2)]") = .ok p ∧
      JP.Eval Ex.env Oracle.id p (.arr [.int 1, .int 2]) = some (.err (.inRight .in_ (.int 2))) := ⟨_, rfl, run_of_runFuel 30 _ rfl⟩
  obtain ⟨z, E, h1, h2, h3⟩ := C17_history Ex.env id p _ _ _ hv
  exact ⟨p, z, E, hp, h1, h2, h3.done⟩

/-- For C37_result_is_new: a call that has returned a slice. -/
example : ∃ p z E r, History Ex.env id 1 p Ex.doc Oracle.id z ∧ z.evals 1 = some E ∧ E.code = .ret (.ok (.halt r)) := by
  obtain ⟨p, hp, hv⟩ : ∃ p, Compile Ex.env (b! "$..a") = .ok p ∧
      JP.Eval Ex.env Oracle.id p Ex.doc = some (.ok (some [.arr [.int 1, .int 2, .int 3], .null])) := ⟨_, rfl, run_of_runFuel 30 _ rfl⟩
  obtain ⟨z, E, h1, h2, h3⟩ := C17_history Ex.env id p _ _ _ hv
  obtain ⟨r, h3, _⟩ := h3
  exact ⟨_, z, _, r, h1, h2, h3⟩

/-- For C18_no_race and C37_no_write: `Eval` of `$[0]` on `5`, just before it clears the slot of its stack that held the
index. -/
example : ∃ z E a, Steps Ex.env id Sys.empty z ∧ z.evals 1 = some E ∧ Writes E.code a := by
  obtain ⟨p, hp⟩ : ∃ p, Compile Ex.env (b! "$[0]") = .ok p := ⟨_, rfl⟩
  let y : Sys := ⟨Heap.alloc (fun _ => []) 0 (.prog p.prog), fun _ => none⟩
  have h1 : Steps Ex.env id Sys.empty y := .one (.build Sys.empty (.prog p.prog))
  have h2 : Steps Ex.env id y (y.update 1 ⟨⟨0, 0⟩, .atom (.int 5), Oracle.id, begin (.atom (.int 5)), []⟩ y.heap) :=
    .one (.call y 1 (by decide) rfl ⟨0, 0⟩ p.prog (.inl rfl) rfl _ (.int 5) (.atom _ rfl) Oracle.id)
  cases hp
  obtain ⟨h', E', ht, hw⟩ : ∃ h' E', ticks Ex.env id 1 7 y.heap ⟨⟨0, 0⟩, .atom (.int 5), Oracle.id, begin (.atom (.int 5)), []⟩ = some (h', E') ∧
      ∃ a i v k, E'.code = Prog.write a i v k := ⟨_, _, rfl, _, _, _, _, rfl⟩
  obtain ⟨a, i, v, k, hc⟩ := hw
  obtain ⟨z, k1, k2, _⟩ := ticks_steps (y := y.update 1 ⟨⟨0, 0⟩, .atom (.int 5), Oracle.id, begin (.atom (.int 5)), []⟩ y.heap) ht
    (by simp [Sys.update]) rfl
  exact ⟨z, E', a, (h1.trans h2).trans k1, k2, i, v, k, hc⟩

end JP.Conc
