import Verif.Proof.Conc.Progress
/-!
Histories: that there are any, and what is so in all of them.
-/
namespace JP.Conc

/-- The caller's memory. -/
def Caller (a : Addr) : Prop := a.owner = 0

theorem Rep.built {h h' : Heap} {x : HV} {v : V} (hm : ∀ a, h.get a ≠ none → h'.get a = h.get a) (hr : Rep Caller h x v) :
    Rep Caller h' x v :=
  hr.got.mono (fun _ h => h.1) (fun a h => hm a h.2)

theorem RepL.built {h h' : Heap} {x : List HV} {v : List V} (hm : ∀ a, h.get a ≠ none → h'.get a = h.get a)
    (hr : RepL Caller h x v) : RepL Caller h' x v :=
  hr.got.mono (fun _ h => h.1) (fun a h => hm a h.2)

theorem RepM.built {h h' : Heap} {x : List (Bytes × HV)} {v : List (Bytes × V)}
    (hm : ∀ a, h.get a ≠ none → h'.get a = h.get a) (hr : RepM Caller h x v) : RepM Caller h' x v :=
  hr.got.mono (fun _ h => h.1) (fun a h => hm a h.2)

/-- Nothing but building has happened. -/
structure Built (env : Env) (grow : Nat → Nat) (y z : Sys) : Prop where
  steps : Steps env grow y z
  evals : z.evals = y.evals
  keep : ∀ a, y.heap.get a ≠ none → z.heap.get a = y.heap.get a

theorem Built.trans {env : Env} {grow : Nat → Nat} {x y z : Sys} (h1 : Built env grow x y) (h2 : Built env grow y z) :
    Built env grow x z where
  steps := h1.steps.trans h2.steps
  evals := h2.evals.trans h1.evals
  keep a ha := by
    have := h1.keep a ha
    rw [h2.keep a (by rw [this]; exact ha), this]

theorem alloc_keep {h : Heap} {e : Nat} {o : Obj} {a : Addr} (ha : h.get a ≠ none) : (h.alloc e o).get a = h.get a := by
  rw [get_alloc]
  split
  · rename_i hf; rw [hf, get_fresh] at ha; exact absurd rfl ha
  · rfl

theorem built_one (env : Env) (grow : Nat → Nat) (y : Sys) (o : Obj) : Built env grow y ⟨y.heap.alloc 0 o, y.evals⟩ where
  steps := .one (.build y o)
  evals := rfl
  keep _ ha := alloc_keep ha

theorem Built.refl (env : Env) (grow : Nat → Nat) (y : Sys) : Built env grow y y := ⟨.refl y, rfl, fun _ _ => rfl⟩

mutual
/-- Every document can be built. -/
theorem build_doc (env : Env) (grow : Nat → Nat) : ∀ (v : V) (y : Sys), ∃ z x, Built env grow y z ∧ Rep Caller z.heap x v
  | .arr vs, y => by
    obtain ⟨z, xs, h1, h2⟩ := build_list env grow vs y
    refine ⟨_, .arr ⟨z.heap.fresh 0, 0, xs.length, xs.length⟩, h1.trans (built_one env grow z (.cells xs)), ?_⟩
    refine .arr _ xs vs rfl (by rw [get_alloc]; simp) (by simp) ?_
    simp only [List.drop_zero, List.take_length]
    exact h2.built (fun _ ha => alloc_keep ha)
  | .obj kvs, y => by
    obtain ⟨z, xs, h1, h2⟩ := build_members env grow kvs y
    refine ⟨_, .obj (z.heap.fresh 0), h1.trans (built_one env grow z (.members xs)), ?_⟩
    exact .obj _ xs kvs rfl (by rw [get_alloc]; simp) (h2.built (fun _ ha => alloc_keep ha))
  | .null, y => ⟨y, .atom _, .refl env grow y, .atom _ rfl⟩
  | .bool _, y => ⟨y, .atom _, .refl env grow y, .atom _ rfl⟩
  | .int _, y => ⟨y, .atom _, .refl env grow y, .atom _ rfl⟩
  | .float _, y => ⟨y, .atom _, .refl env grow y, .atom _ rfl⟩
  | .str _, y => ⟨y, .atom _, .refl env grow y, .atom _ rfl⟩
  | .slice _, y => ⟨y, .atom _, .refl env grow y, .atom _ rfl⟩
  | .gint _, y => ⟨y, .atom _, .refl env grow y, .atom _ rfl⟩
  | .num _, y => ⟨y, .atom _, .refl env grow y, .atom _ rfl⟩
  | .name _, y => ⟨y, .atom _, .refl env grow y, .atom _ rfl⟩
  | .re _, y => ⟨y, .atom _, .refl env grow y, .atom _ rfl⟩
  | .err _, y => ⟨y, .atom _, .refl env grow y, .atom _ rfl⟩
theorem build_list (env : Env) (grow : Nat → Nat) : ∀ (vs : List V) (y : Sys),
    ∃ z xs, Built env grow y z ∧ RepL Caller z.heap xs vs
  | [], y => ⟨y, [], .refl env grow y, .nil⟩
  | v :: vs, y => by
    obtain ⟨z, x, h1, h2⟩ := build_doc env grow v y
    obtain ⟨w, xs, h3, h4⟩ := build_list env grow vs z
    exact ⟨w, x :: xs, h1.trans h3, .cons _ _ _ _ (h2.built h3.keep) h4⟩
theorem build_members (env : Env) (grow : Nat → Nat) : ∀ (vs : List (Bytes × V)) (y : Sys),
    ∃ z xs, Built env grow y z ∧ RepM Caller z.heap xs vs
  | [], y => ⟨y, [], .refl env grow y, .nil⟩
  | (k, v) :: vs, y => by
    obtain ⟨z, x, h1, h2⟩ := build_doc env grow v y
    obtain ⟨w, xs, h3, h4⟩ := build_members env grow vs z
    exact ⟨w, (k, x) :: xs, h1.trans h3, .cons _ _ _ _ _ (h2.built h3.keep) h4⟩
end

/-- In any state, the caller can build a program and a document and call `Eval` with them. -/
theorem can_call (env : Env) (grow : Nat → Nat) (e : Nat) (he : e ≠ 0) (p : Program) (v : V) (oracle : Oracle) (w : Sys)
    (hn : w.evals e = none) :
    ∃ x y prog root, Steps env grow w x ∧ x.evals = w.evals ∧ x.heap.get prog = some (.prog p) ∧ Rep x.Known x.heap root v ∧
      CallAt x y e prog root oracle := by
  obtain ⟨z, root, h1, h2⟩ := build_doc env grow v w
  refine ⟨_, _, z.heap.fresh 0, root, h1.steps.trans (.one (.build z (.prog p))), h1.evals, ?_, ?_, he, ?_, .inl rfl, rfl⟩
  · simp only [get_alloc]; simp
  · exact (h2.got.mono (fun _ h => .inl h.1) (fun a h => alloc_keep h.2))
  · simp only; rw [h1.evals]; exact hn

theorem CallAt.step {env : Env} {grow : Nat → Nat} {x y : Sys} {e : Nat} {prog : Addr} {root : HV} {oracle : Oracle}
    {p : Program} {v : V} (h : CallAt x y e prog root oracle) (hp : x.heap.get prog = some (.prog p))
    (hr : Rep x.Known x.heap root v) : Step env grow x y := by
  obtain ⟨he, hn, hk, rfl⟩ := h
  exact .call x e he hn prog p hk hp root v hr oracle

theorem History.steps {env : Env} {grow : Nat → Nat} {e : Nat} {p : Program} {v : V} {oracle : Oracle} {z : Sys}
    (h : History env grow e p v oracle z) : Steps env grow Sys.empty z := by
  obtain ⟨x, y, prog, root, h1, h2, h3, h4, h5⟩ := h
  exact (h1.trans (.one (h4.step h2 h3))).trans h5

theorem History.later {env : Env} {grow : Nat → Nat} {e : Nat} {p : Program} {v : V} {oracle : Oracle} {z w : Sys}
    (h : History env grow e p v oracle z) (hs : Steps env grow z w) : History env grow e p v oracle w := by
  obtain ⟨x, y, prog, root, h1, h2, h3, h4, h5⟩ := h
  exact ⟨x, y, prog, root, h1, h2, h3, h4, h5.trans hs⟩

/-- The evaluation in a state of a history. -/
theorem History.inv {env : Env} {grow : Nat → Nat} {e : Nat} {p : Program} {v : V} {oracle : Oracle} {z : Sys}
    (h : History env grow e p v oracle z) :
    ∃ F G E, SysInv env z F G ∧ z.evals e = some E ∧ E.oracle = oracle ∧ (G e).p = p ∧ (G e).v = v := by
  obtain ⟨x, y, prog, root, h1, h2, h3, ⟨he, hn, hk, rfl⟩, h5⟩ := h
  obtain ⟨F, G, hi⟩ := inv_reachable h1
  obtain ⟨μ, hK⟩ := inv_call hi he hn hk h2 h3 oracle
  obtain ⟨F', G', hi', _, _, ht⟩ := inv_steps hK.inv h5
  obtain ⟨E', k1, _, _, k4, k5, k6⟩ := ht e ⟨prog, root, oracle, begin root, []⟩ (by simp [Sys.update, called])
  refine ⟨F', G', E', hi', k1, k4, ?_, ?_⟩
  · rw [k5]; simp
  · rw [k6]; simp

theorem Returned.unique {h : Heap} {E : Eval} {r r' : Res RErr GoSlice} (h1 : Returned h E r) (h2 : Returned h E r') : r = r' := by
  have ok : ∀ {vs : List V} {x : SRef} {r : Res RErr GoSlice}, E.code = Prog.ret (.ok (.halt x)) →
      Rep (fun _ => True) h (.arr x) (.arr vs) → Returned h E r → r = .ok (some vs) := by
    intro vs x r hc hr hR
    match r, hR with
    | .ok (some ws), ⟨y, hy, hr'⟩ =>
      rw [hc] at hy
      cases hy
      cases hr'.unique hr
      rfl
    | .err _, hR => exact absurd (hc.symm.trans hR) (by intro h; cases h)
    | .panic _, hR => exact absurd (hc.symm.trans hR) (by intro h; cases h)
    | .stuck, hR => exact absurd (hc.symm.trans hR) (by intro h; cases h)
  match r, r', h1, h2 with
  | .ok (some vs), r', ⟨x, hx, hr⟩, h2 => exact (ok hx hr h2).symm
  | r, .ok (some ws), h1, ⟨x, hx, hr⟩ => exact ok hx hr h1
  | .err _, .err _, h1, h2 => have h := Eq.trans (Eq.symm h1) h2; cases h; rfl
  | .err _, .panic _, h1, h2 => have h := Eq.trans (Eq.symm h1) h2; cases h
  | .err _, .stuck, h1, h2 => have h := Eq.trans (Eq.symm h1) h2; cases h
  | .panic _, .err _, h1, h2 => have h := Eq.trans (Eq.symm h1) h2; cases h
  | .panic _, .panic _, h1, h2 => have h := Eq.trans (Eq.symm h1) h2; cases h; rfl
  | .panic _, .stuck, h1, h2 => have h := Eq.trans (Eq.symm h1) h2; cases h
  | .stuck, .err _, h1, h2 => have h := Eq.trans (Eq.symm h1) h2; cases h
  | .stuck, .panic _, h1, h2 => have h := Eq.trans (Eq.symm h1) h2; cases h
  | .stuck, .stuck, h1, h2 => rfl

theorem Returned.done {h : Heap} {E : Eval} {r : Res RErr GoSlice} (hr : Returned h E r) : E.Done := by
  unfold Eval.Done
  match r, hr with
  | .ok (some vs), ⟨x, hx, _⟩ => rw [hx]; trivial
  | .err _, h => rw [show E.code = _ from h]; trivial
  | .panic _, h => rw [show E.code = _ from h]; trivial
  | .stuck, h => rw [show E.code = _ from h]; trivial

/-- An evaluation that is done has returned what the machine of `Machine.lean` comes to. -/
theorem EvalInv.returned {env : Env} {F : Addr → Prop} {h : Heap} {e : Nat} {E : Eval} {p : Program} {v : V}
    {μ : Rank} (hi : EvalInv env F h e E p v μ) (hd : E.Done) :
    ∃ res, Returned h E res ∧ run env E.oracle p v (.init v) = some res := by
  rcases hi with ⟨hn, _⟩ | ⟨_, ch, W, hb, _, hc, _⟩
  · exact absurd hd hn
  · rw [hb.reach.run]
    generalize hco : E.code = code at hc
    unfold Came at hc
    split at hc
    · obtain ⟨⟨vs, h1, h2, _⟩, _⟩ := hc
      exact ⟨.ok (some vs), ⟨_, hco, h2.mono (fun _ _ => trivial) (fun _ _ => rfl)⟩, by rw [h1]; rfl⟩
    · exact ⟨.err _, hco, by rw [hc.1]; rfl⟩
    · exact ⟨.panic _, hco, by rw [hc]; rfl⟩
    · exact ⟨.stuck, hco, by rw [hc]; rfl⟩
    · exact hc.elim

theorem reach_of_nth {env : Env} {oracle : Oracle} {p : Program} {v : V} : ∀ {n : Nat} {s : MState},
    nth env oracle p v n = some s → Reach env oracle p v (.inl s)
  | 0, s, h => by cases h; exact .init
  | n + 1, s, h => by
    simp only [nth] at h
    split at h
    · rename_i s' hs
      split at h
      · rename_i s'' hv
        cases h
        rw [← hv]
        exact .step _ (reach_of_nth hs)
      · cases h
    · cases h

theorem from_of_nth {env : Env} {oracle : Oracle} {p : Program} {v : V} {n : Nat} {T : MState ⊕ Res RErr GoSlice}
    {vals : List (List V)} (h : (nth env oracle p v n).map (fun s => (vnext env oracle p v s, s.values)) = some (T, vals)) :
    From env oracle p v T vals := by
  obtain ⟨s, h1, h2⟩ := Option.map_eq_some_iff.1 h
  cases h2
  exact ⟨s, reach_of_nth h1, rfl, rfl⟩

/-! ## A schedule, for examples -/

/-- The next step of the evaluation's own goroutine, if it is one of the simpler ones. -/
def tick (env : Env) (grow : Nat → Nat) (e : Nat) (h : Heap) (E : Eval) : Option (Heap × Eval) :=
  match E.code with
  | Prog.ret (.ok (.next s)) => some (h, { E with code := order env grow E.oracle E.prog E.root s })
  | Prog.read a i k => (h.cell a i).map fun v => (h, { E with code := k v })
  | Prog.write a i v k => (h.cell a i).map fun _ => (h.setCell a i v, { E with code := k })
  | Prog.make cs k => some (h.alloc e (.cells cs), { E with code := k (h.fresh e) })
  | Prog.order a pc k => match h.get a with
    | some (.prog p) => some (h, { E with code := k p.orders[pc]? })
    | _ => none
  | _ => none

def ticks (env : Env) (grow : Nat → Nat) (e : Nat) : Nat → Heap → Eval → Option (Heap × Eval)
  | 0, h, E => some (h, E)
  | n + 1, h, E => match tick env grow e h E with
    | some (h', E') => ticks env grow e n h' E'
    | none => none

theorem tick_step {env : Env} {grow : Nat → Nat} {e : Nat} {h h' : Heap} {E E' : Eval}
    (ht : tick env grow e h E = some (h', E')) : EvalStep env grow e h E h' E' := by
  unfold tick at ht
  split at ht
  · rename_i s hc
    cases ht
    exact .next h E s hc
  · rename_i a i k hc
    obtain ⟨v, h1, h2⟩ := Option.map_eq_some_iff.1 ht
    cases h2
    exact .act _ _ _ _ (hc ▸ .read h a i k v h1)
  · rename_i a i v k hc
    obtain ⟨w, h1, h2⟩ := Option.map_eq_some_iff.1 ht
    cases h2
    exact .act _ _ _ _ (hc ▸ .write h a i v k (by rw [h1]; rfl))
  · rename_i cs k hc
    cases ht
    exact .act _ _ _ _ (hc ▸ .make h cs k)
  · rename_i a pc k hc
    split at ht
    · rename_i p hg
      cases ht
      exact .act _ _ _ _ (hc ▸ .order h a pc k p hg)
    · cases ht
  · cases ht

theorem ticks_steps {env : Env} {grow : Nat → Nat} {e : Nat} : ∀ {n : Nat} {h h' : Heap} {E E' : Eval} {y : Sys},
    ticks env grow e n h E = some (h', E') → y.evals e = some E → y.heap = h →
    ∃ z, Steps env grow y z ∧ z.evals e = some E' ∧ z.heap = h'
  | 0, h, h', E, E', y, ht, hE, hh => by cases ht; exact ⟨y, .refl y, hE, hh⟩
  | n + 1, h, h', E, E', y, ht, hE, hh => by
    unfold ticks at ht
    split at ht
    · rename_i h1 E1 h2
      obtain ⟨z, k1, k2, k3⟩ := ticks_steps (y := y.update e E1 h1) ht (by simp [Sys.update]) rfl
      exact ⟨z, (Steps.one (.eval y e E E1 h1 hE (by rw [hh]; exact tick_step h2))).trans k1, k2, k3⟩
    · cases ht

theorem done_stays {env : Env} {grow : Nat → Nat} {y z : Sys} (hs : Steps env grow y z) {e : Nat} {E : Eval}
    (hE : y.evals e = some E) (hd : E.Done) : ∃ E', z.evals e = some E' ∧ E'.Done := by
  induction hs with
  | refl => exact ⟨E, hE, hd⟩
  | step y z _ h2 ih =>
    obtain ⟨E1, k1, k2⟩ := ih
    cases h2 with
    | build o => exact ⟨E1, k1, k2⟩
    | call e' he hn prog p hk hp root v hr' oracle =>
      have : e ≠ e' := by rintro rfl; rw [hn] at k1; cases k1
      exact ⟨E1, by simp [Sys.update, this, k1], k2⟩
    | eval e' E2 E' h' hE2 hst =>
      by_cases hee : e = e'
      · subst hee
        rw [k1] at hE2
        cases hE2
        obtain ⟨c, P, P', _, _, rfl⟩ := done_step k2 hst
        exact ⟨{ E1 with prods := E1.prods.set c P' }, by simp [Sys.update], k2⟩
      · exact ⟨E1, by simp [Sys.update, hee, k1], k2⟩

theorem known_stays {env : Env} {grow : Nat → Nat} {y z : Sys} (hs : Steps env grow y z) {a : Addr} (hk : y.Known a) :
    z.Known a := by
  rcases hk with h0 | ⟨E, hE, hd⟩
  · exact .inl h0
  · exact .inr (done_stays hs hE hd)

end JP.Conc
