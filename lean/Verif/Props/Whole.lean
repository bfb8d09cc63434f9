import Verif.Proof.Perm
import Verif.Props.Ex
/-!
How steps combine, and what map iteration can change: C15 and C16.
-/
namespace JP
open Spec

variable (env : Env)

/-! ### C15 Steps compose -/

/-- A path `q` followed by `r`: if `q` fails, so does the whole, in the same way; if `q` gives the values `vs`,
the whole gives what the steps of `r` make of `vs` (`t` only tells which iteration orders are still to come). -/
theorem C15_compose (oracle : Oracle) (p1 p2 : JSONPath) (q r : Path) (h1 : IsCompiled env p1 q)
    (h2 : IsCompiled env p2 (q ++ r)) (root : V) :
    (∀ e, Eval env oracle p1 root = some (.err e) → Eval env oracle p2 root = some (.err e)) ∧
    (∀ m, Eval env oracle p1 root = some (.panic m) → Eval env oracle p2 root = some (.panic m)) ∧
    (∀ vs, Eval env oracle p1 root = some (.ok (some vs)) →
      ∃ t, Eval env oracle p2 root = some (do
        let (out, _) ← evalSteps env oracle root r (some vs) t
        .ok (some out.elems))) := by
  rw [h1.eval, h2.eval]
  simp only [Option.some.injEq]
  refine ⟨?_, ?_, ?_⟩
  · intro e h
    unfold evalPath at h ⊢
    rw [evalSteps_append]
    cases hs : evalSteps env oracle root q (some [root]) 0 <;> rw [hs] at h <;> cases h
    rfl
  · intro e h
    unfold evalPath at h ⊢
    rw [evalSteps_append]
    cases hs : evalSteps env oracle root q (some [root]) 0 <;> rw [hs] at h <;> cases h
    rfl
  · intro vs h
    obtain ⟨out, t, ho, rfl⟩ := evalPath_ok_iff.1 h
    refine ⟨t, ?_⟩
    unfold evalPath
    rw [evalSteps_append, ho]
    simp only [Res.bind_ok]
    exact (evalSteps_shift (env := env) (oracle := oracle) (oracle' := oracle) (root := root) (root' := root) (t := t) (t' := t)
      (fun _ => rfl) (.inr rfl) (out := out) (out' := some out.elems) rfl 0).stepResult

example := C15_compose Ex.env Oracle.id _ _ [⟨.wild, []⟩] [⟨.select, [.int 1]⟩] ⟨⟨b! "$.*", rfl, rfl⟩, by decide⟩ ⟨⟨b! "$.*[1]", rfl, rfl⟩, by decide⟩ Ex.doc

/-- The same, in terms of evaluations only: the steps of `r`, if they do not mention `$`, make of `vs` what they
make of the elements of a document that is the array `vs`. -/
theorem C15_compose_eval (oracle : Oracle) (hv : oracle.Valid) (p1 p2 p3 : JSONPath) (q r : Path)
    (hn : Path.NoRoot r) (h1 : IsCompiled env p1 q) (h2 : IsCompiled env p2 (q ++ r)) (h3 : IsCompiled env p3 (⟨.wild, []⟩ :: r))
    (root : V) (vs : List V) (h : Eval env oracle p1 root = some (.ok (some vs))) :
    ∃ oracle' : Oracle, oracle'.Valid ∧ Eval env oracle p2 root = Eval env oracle' p3 (.arr vs) := by
  rw [h1.eval] at h
  simp only [Option.some.injEq] at h
  obtain ⟨out, t, ho, rfl⟩ := evalPath_ok_iff.1 h
  refine ⟨fun n => if n = 0 then Oracle.id 0 else oracle (t + (n - 1)), ?_, ?_⟩
  · intro n
    dsimp only
    split
    · exact fun _ _ => .refl _
    · exact hv _
  · rw [h2.eval, h3.eval]
    unfold evalPath
    rw [evalSteps_append, ho]
    simp only [Res.bind_ok, evalSteps, evalStep, GoSlice.elems, Option.getD_some, applySelection, children, Option.some.injEq]
    refine (evalSteps_shift (t := t) (t' := 1) ?_ (.inl hn) ?_ 0).stepResult
    · intro k
      rw [if_neg (by omega)]
      congr 1
      omega
    · rw [GoSlice.elems_appendAll]; rfl

example : ∃ p1 p2 p3, IsCompiled Ex.env p1 [⟨.wild, []⟩] ∧ IsCompiled Ex.env p2 ([⟨.wild, []⟩] ++ [⟨.select, [.int 1]⟩]) ∧
    IsCompiled Ex.env p3 (⟨.wild, []⟩ :: [⟨.select, [.int 1]⟩]) ∧ Path.NoRoot [⟨.select, [.int 1]⟩] ∧
    (∃ vs, Eval Ex.env Oracle.id p1 Ex.doc = some (.ok (some vs))) ∧
    Eval Ex.env Oracle.id p2 Ex.doc = some (.ok (some [.int 2])) :=
  ⟨_, _, _, ⟨⟨b! "$.*", rfl, rfl⟩, by decide⟩, ⟨⟨b! "$.*[1]", rfl, rfl⟩, by decide⟩, ⟨⟨b! "$[*][1]", rfl, rfl⟩, by decide⟩,
    by intro s hs e he; simp at hs; subst hs; simp at he, ⟨_, run_of_runFuel 10 _ rfl⟩, run_of_runFuel 10 _ rfl⟩

/-- The full statement of independence: a step makes of two result sets together what it makes of each. -/
def StepsIndependent (env : Env) : Prop :=
  ∀ (s : Step) (p : JSONPath), IsCompiled env p [⟨.wild, []⟩, s] → Path.NoRoot [s] → Path.NoKeys [s] →
    ∀ (oracle : Oracle), oracle.Valid → ∀ (xs ys vx vy : List V), (V.arr (xs ++ ys)).WF →
    Eval env oracle p (.arr xs) = some (.ok (some vx)) → Eval env oracle p (.arr ys) = some (.ok (some vy)) →
    ∃ vs, Eval env oracle p (.arr (xs ++ ys)) = some (.ok (some vs)) ∧ vs.Perm (vx ++ vy)

/-- It is false: a slice discards what was selected from the values before. -/
theorem C15_slice_not_independent : ¬ StepsIndependent env := by
  intro h
  obtain ⟨vs, he, hp⟩ := h ⟨.select, [.slice ⟨some (.int 0), some (.int 1), none⟩]⟩ _ ⟨⟨b! "$[*][0:1]", rfl, rfl⟩, by decide⟩
    (by intro s hs e he; simp at hs; subst hs; simp at he) (by intro s hs e he; simp at hs; subst hs; simp at he)
    Oracle.id (fun _ _ _ => .refl _) [.arr [.null]] [.null] [.null] [] (by simp [V.WF, WFs])
    (run_of_runFuel 10 _ rfl) (run_of_runFuel 10 _ rfl)
  rw [show Eval env Oracle.id _ _ = some (.ok (some [])) from run_of_runFuel 10 _ rfl] at he
  cases he
  simpa using hp.length_eq

/-- It is false for another reason: a filter that has no children to test tests a null. -/
theorem C15_filter_not_independent : ¬ StepsIndependent env := by
  intro h
  obtain ⟨vs, he, hp⟩ := h ⟨.filter, [.expr (.bool true)]⟩ _ ⟨⟨b! "$[*][?(true)]", rfl, rfl⟩, by decide⟩
    (by intro s hs e he; simp at hs; subst hs; simp at he; subst he; rfl)
    (by intro s hs e he; simp at hs; subst hs; simp at he; subst he; rfl)
    Oracle.id (fun _ _ _ => .refl _) [.arr []] [.arr [.bool false]] [.null] [.bool false] (by simp [V.WF, WFs])
    (run_of_runFuel 20 _ rfl) (run_of_runFuel 20 _ rfl)
  rw [show Eval env Oracle.id _ _ = some (.ok (some [.bool false])) from run_of_runFuel 20 _ rfl] at he
  cases he
  simpa using hp.length_eq

/-- A filter finds something to test in a list of values: a child or, if it descends, an array or object.  (Other
steps need nothing.) -/
def FindsValues (s : Step) (xs : List V) : Prop :=
  match s.op with
  | .filter => ∃ x ∈ xs, (∃ y ys, x = .arr (y :: ys)) ∨ (∃ y ys, x = .obj (y :: ys))
  | .nestFilter => ∃ x ∈ xs, isStructure x = true
  | _ => True

private theorem stepping_ne_nil {o : Ord} (ho : o.Valid) {x : V} (hx : (∃ y ys, x = .arr (y :: ys)) ∨ (∃ y ys, x = .obj (y :: ys))) :
    ∀ {l : List V} {k : Nat}, x ∈ l → stepping o k l ≠ []
  | [], k, hm => by cases hm
  | w :: r, k, hm => by
    unfold stepping
    intro hc
    rw [List.append_eq_nil_iff] at hc
    rcases List.mem_cons.1 hm with rfl | hm
    · rcases hx with ⟨y, ys, rfl⟩ | ⟨y, ys, rfl⟩
      · simp [children] at hc
      · have := permute_perm (xs := ((y :: ys).map Prod.snd)) (p := o [k] (y :: ys).length) (by simpa using ho [k] (ys.length + 1))
        rw [show permute (o [k] (y :: ys).length) ((y :: ys).map Prod.snd) = [] from hc.1] at this
        simpa using this.length_eq
    · exact stepping_ne_nil ho hx hm hc.2

private theorem eval_wild_step {oracle : Oracle} {s : Step} {p : JSONPath} (hp : IsCompiled env p [⟨.wild, []⟩, s])
    (hn : Path.NoRoot [s]) (zs : List V) (R : V) :
    Eval env oracle p (.arr zs) = some (stepResult (evalStep env oracle R s (some zs) 1)) := by
  rw [hp.eval]
  unfold evalPath
  simp only [evalSteps, evalStep.eq_def env oracle _ ⟨.wild, []⟩, GoSlice.elems, Option.getD_some, applySelection, children,
    Res.bind_ok, Option.some.injEq]
  have := (evalStep_shift (env := env) (oracle := oracle) (oracle' := oracle) (root := .arr zs) (root' := R) (t := 1) (t' := 1)
    (fun _ => rfl) (s := s) (fun e he => .inl (hn s (by simp) e he)) (out := GoSlice.appendAll (some []) zs) (out' := some zs)
    (GoSlice.elems_appendAll _ _) 0).stepResult
  rw [← this]
  unfold stepResult
  cases evalStep env oracle (.arr zs) s (GoSlice.appendAll (some []) zs) (1 + 0) <;> rfl

/-- Every kind of step is independent, up to the order of the values, if it has no slices and, when it is a
filter, does not select null or finds something to test. -/
theorem C15_independent_partial (s : Step) (p : JSONPath) (hp : IsCompiled env p [⟨.wild, []⟩, s])
    (hn : Path.NoRoot [s]) (hk : Path.NoKeys [s]) (hno : ¬ s.HasSlice) (oracle : Oracle) (hv : oracle.Valid)
    (xs ys vx vy : List V) (hr : (V.arr (xs ++ ys)).WF)
    (hf : IgnoresNull env s ∨ (xs = [] ∨ FindsValues s xs) ∧ (ys = [] ∨ FindsValues s ys))
    (hx : Eval env oracle p (.arr xs) = some (.ok (some vx))) (hy : Eval env oracle p (.arr ys) = some (.ok (some vy))) :
    ∃ vs, Eval env oracle p (.arr (xs ++ ys)) = some (.ok (some vs)) ∧ vs.Perm (vx ++ vy) := by
  have hw := hp.wf s (by simp)
  rw [eval_wild_step env hp hn _ (.arr (xs ++ ys))] at hx hy ⊢
  simp only [Option.some.injEq, stepResult] at hx hy ⊢
  obtain ⟨⟨oa, ta⟩, h1, hx⟩ := bind_eq_ok hx
  obtain ⟨⟨ob, tb⟩, h2, hy⟩ := bind_eq_ok hy
  cases hx; cases hy
  have hmem : ∀ v ∈ xs ++ ys, From True (V.arr (xs ++ ys)) v := fun v hv => .inl (.elem .root hv)
  have hfil : ∀ zs t, IgnoresNull env s ∨ zs = [] ∨ FindsValues s zs → s.op = .filter → zs ≠ [] →
      stepping (oracle t) 0 zs ≠ [] ∨ NullAddsNothing env (.arr (xs ++ ys)) s := by
    intro zs t hz hop hne
    rcases hz with h | h | h
    · exact .inr (nullAddsNothing_of_ignores hw (hn s (by simp)) (.inl hop) h)
    · exact absurd h hne
    · unfold FindsValues at h
      rw [hop] at h
      obtain ⟨x, hx, h⟩ := h
      exact .inl (stepping_ne_nil (hv t) h hx)
  have hwal : ∀ zs t, IgnoresNull env s ∨ zs = [] ∨ FindsValues s zs → s.op = .nestFilter → zs ≠ [] →
      walker (oracle t) 0 zs ≠ [] ∨ NullAddsNothing env (.arr (xs ++ ys)) s := by
    intro zs t hz hop hne
    rcases hz with h | h | h
    · exact .inr (nullAddsNothing_of_ignores hw (hn s (by simp)) (.inr hop) h)
    · exact absurd h hne
    · unfold FindsValues at h
      rw [hop] at h
      obtain ⟨x, hx, h⟩ := h
      exact .inl (walker_ne_nil h hx)
  have hfx := hf.imp id And.left
  have hfy := hf.imp id And.right
  obtain ⟨o, t, ho, hperm⟩ := evalStep_cat hr.noSlice hr.lens hw (hk s (by simp))
    (by
      intro v hvm
      cases v with
      | slice sl => exact absurd ⟨sl, hvm⟩ hno
      | _ => trivial)
    hno hv hv hv (fun v h => hmem v (by simp [h])) (fun v h => hmem v (by simp [h])) 1 1 1
    (hfil xs 1 hfx) (hfil ys 1 hfy) (hwal xs 1 hfx) (hwal ys 1 hfy) h1 h2
  rw [ho]
  exact ⟨o.elems, rfl, hperm⟩

example : ∃ p, IsCompiled Ex.env p [⟨.wild, []⟩, ⟨.nestMember, [.name (b! "a")]⟩] ∧ ¬ Step.HasSlice ⟨.nestMember, [.name (b! "a")]⟩ ∧
    FindsValues ⟨.nestMember, [.name (b! "a")]⟩ [.arr [Ex.doc]] ∧
    Eval Ex.env Oracle.id p (.arr [.arr [Ex.doc]]) = some (.ok (some [.arr [.int 1, .int 2, .int 3], .null])) :=
  ⟨_, ⟨⟨b! "$[*]..a", rfl, rfl⟩, by decide⟩, by rintro ⟨sl, h⟩; simp at h, trivial, run_of_runFuel 30 _ rfl⟩

/-- The filter `[?(@>1)]` does not select null. -/
example : IgnoresNull Ex.env ⟨.filter, [.expr (.inner .gt [.current, .int 1])]⟩ := rfl

/-- If the path `q` selects exactly one value, then `q` followed by any steps `r` that do not mention `$` gives
what `$r` gives for that value as the document: the same values in the same order, or the same failure. -/
theorem C15_single (oracle : Oracle) (hv : oracle.Valid) (p1 p2 p3 : JSONPath) (q r : Path) (hn : Path.NoRoot r)
    (h1 : IsCompiled env p1 q) (h2 : IsCompiled env p2 (q ++ r)) (h3 : IsCompiled env p3 r) (root v : V)
    (h : Eval env oracle p1 root = some (.ok (some [v]))) :
    ∃ oracle' : Oracle, oracle'.Valid ∧ Eval env oracle p2 root = Eval env oracle' p3 v := by
  rw [h1.eval] at h
  simp only [Option.some.injEq] at h
  obtain ⟨out, t, ho, he⟩ := evalPath_ok_iff.1 h
  refine ⟨fun n => oracle (t + n), fun n => hv _, ?_⟩
  rw [h2.eval, h3.eval]
  unfold evalPath
  rw [evalSteps_append, ho]
  simp only [Res.bind_ok, Option.some.injEq]
  exact (evalSteps_shift (t := t) (t' := 0) (fun k => by simp) (.inl hn) (out := out) (out' := some [v]) (by rw [he]; rfl) 0).stepResult

/-- `$.a` selects one array, so `$.a[1:]` is `$[1:]` of it. -/
example : ∃ p1 p2 p3, IsCompiled Ex.env p1 [⟨.member, [.name (b! "a")]⟩] ∧
    IsCompiled Ex.env p2 ([⟨.member, [.name (b! "a")]⟩] ++ [⟨.select, [.slice ⟨some (.int 1), none, none⟩]⟩]) ∧
    IsCompiled Ex.env p3 [⟨.select, [.slice ⟨some (.int 1), none, none⟩]⟩] ∧
    Eval Ex.env Oracle.id p1 Ex.doc = some (.ok (some [.arr [.int 1, .int 2, .int 3]])) ∧
    Eval Ex.env Oracle.id p2 Ex.doc = some (.ok (some [.int 2, .int 3])) :=
  ⟨_, _, _, ⟨⟨b! "$.a", rfl, rfl⟩, by decide⟩, ⟨⟨b! "$.a[1:]", rfl, rfl⟩, by decide⟩, ⟨⟨b! "$[1:]", rfl, rfl⟩, by decide⟩,
    run_of_runFuel 10 _ rfl, run_of_runFuel 10 _ rfl⟩

private theorem evalSteps_each {root : V} (hr : root.WF) {oracle : Oracle} (hv : oracle.Valid) {r : Path} (hw : r.WF) (hn : r.NoRoot)
    (hk : r.NoKeys) (hno : ∀ s ∈ r, ¬ s.HasSlice) (hig : ∀ s ∈ r, s.op = .filter ∨ s.op = .nestFilter → IgnoresNull env s) (f : V → List V) :
    ∀ (vs : List V), vs ≠ [] → (∀ v ∈ vs, From True root v) →
    (∀ v ∈ vs, ∃ o : Oracle, o.Valid ∧ ∃ out t, evalSteps env o root r (some [v]) 0 = .ok (out, t) ∧ out.elems = f v) → ∀ t,
    ∃ out t', evalSteps env oracle root r (some vs) t = .ok (out, t') ∧ out.elems.Perm (vs.flatMap f)
  | [], h, _, _, _ => absurd rfl h
  | [v], _, hfrom, h, t => by
    obtain ⟨o, hvo, out, t1, he, hf⟩ := h v (by simp)
    rcases evalSteps_perm (env := env) hr hvo hv r hw hk hno (some [v]) (some [v]) 0 t (fun v hv => hfrom v hv) (.refl _) with
      ⟨x, tx, x', tx', g1, g2, hpx⟩ | ⟨e, e', g1, g2⟩
    · rw [he] at g1; cases g1
      exact ⟨_, _, g2, by rw [List.flatMap_singleton, ← hf]; exact hpx.symm⟩
    · rw [he] at g1; cases g1
  | v :: w :: rest, _, hfrom, h, t => by
    obtain ⟨o, hvo, out, t1, he, hf⟩ := h v (by simp)
    obtain ⟨out', t2, he', hp'⟩ := evalSteps_each hr hv hw hn hk hno hig f (w :: rest) (by simp) (fun x hx => hfrom x (by simp [hx]))
      (fun x hx => h x (by simp [hx])) 0
    obtain ⟨o3, t3, e3, hp3⟩ := evalSteps_cat hr hvo hv hv r hw hn hk hno hig (some [v]) (some (w :: rest)) 0 0 t
      (fun x hx => hfrom x (by simp [GoSlice.elems] at hx; simp [hx])) (fun x hx => hfrom x (List.mem_cons_of_mem _ hx)) _ _ _ _ he he'
    refine ⟨o3, t3, e3, hp3.trans ?_⟩
    rw [List.flatMap_cons, ← hf]
    exact hp'.append_left _

/-- Paths act on each value alone: if `q` selects the values `vs` (at least one), and `$r` for each of them as the
document gives `f v`, then `q` followed by `r` gives the values of all the `f v` together, in some order.  For steps
`r` that mention neither `$` nor `keys` and have no slices, and whose filters do not select null. -/
theorem C15_each_partial (oracle : Oracle) (hv : oracle.Valid) (p1 p2 p3 : JSONPath) (q r : Path) (hn : Path.NoRoot r) (hk : Path.NoKeys r)
    (hno : ∀ s ∈ r, ¬ s.HasSlice) (hig : ∀ s ∈ r, s.op = .filter ∨ s.op = .nestFilter → IgnoresNull env s)
    (h1 : IsCompiled env p1 q) (h2 : IsCompiled env p2 (q ++ r)) (h3 : IsCompiled env p3 r) (root : V) (hr : root.WF) (vs : List V)
    (h : Eval env oracle p1 root = some (.ok (some vs))) (hne : vs ≠ []) (f : V → List V)
    (hf : ∀ v ∈ vs, ∃ o : Oracle, o.Valid ∧ Eval env o p3 v = some (.ok (some (f v)))) :
    ∃ ws, Eval env oracle p2 root = some (.ok (some ws)) ∧ ws.Perm (vs.flatMap f) := by
  rw [h1.eval] at h
  simp only [Option.some.injEq] at h
  obtain ⟨out, t, ho, rfl⟩ := evalPath_ok_iff.1 h
  have hfrom : ∀ v ∈ out.elems, From True root v := by
    have := evalSteps_safe (S := False) (N := True) (env := env) (oracle := oracle) hr.noSlice hr.lens q
      h1.wf (fun _ _ _ => trivial) (fun _ _ _ _ h => h.elim) (some [root]) 0
      (by intro v hv; simp [GoSlice.elems] at hv; subst hv; exact .inl .root)
    rw [ho] at this
    exact this
  obtain ⟨o, t', he, hp⟩ := evalSteps_each env hr hv (r := r) h3.wf hn hk hno hig f out.elems hne hfrom (by
    intro v hvm
    obtain ⟨o, hvo, he⟩ := hf v hvm
    rw [h3.eval] at he
    simp only [Option.some.injEq] at he
    obtain ⟨x, tx, hx, hxe⟩ := evalPath_ok_iff.1 he
    refine ⟨o, hvo, ?_⟩
    have hsh := evalSteps_shift (env := env) (oracle := o) (oracle' := o) (root := v) (root' := root) (t := 0) (t' := 0) (fun _ => rfl)
      (p := r) (.inl hn) (out := some [v]) (out' := some [v]) rfl 0
    rw [Nat.add_zero, hx] at hsh
    cases hy : evalSteps env o root r (some [v]) 0 with
    | ok y => rw [hy] at hsh; exact ⟨y.1, y.2, rfl, hsh.1.symm.trans hxe⟩
    | _ => rw [hy] at hsh; exact hsh.elim) t
  rw [h2.eval]
  refine ⟨o.elems, ?_, hp⟩
  unfold evalPath
  rw [evalSteps_append, ho]
  simp only [Res.bind_ok]
  have hsh := (evalSteps_shift (env := env) (oracle := oracle) (oracle' := oracle) (root := root) (root' := root) (t := t) (t' := t)
    (fun _ => rfl) (p := r) (.inr rfl) (out := out) (out' := some out.elems) rfl 0).stepResult
  rw [Nat.add_zero, he] at hsh
  exact congrArg some hsh

/-- `$.*` selects an array and an object; `$.*[?(@>1)]` gives what `$[?(@>1)]` gives for each of them. -/
example : ∃ p1 p2 p3, IsCompiled Ex.env p1 [⟨.wild, []⟩] ∧
    IsCompiled Ex.env p2 ([⟨.wild, []⟩] ++ [⟨.filter, [.expr (.inner .gt [.current, .int 1])]⟩]) ∧
    IsCompiled Ex.env p3 [⟨.filter, [.expr (.inner .gt [.current, .int 1])]⟩] ∧
    Eval Ex.env Oracle.id p1 Ex.doc = some (.ok (some [.arr [.int 1, .int 2, .int 3], .obj [(b! "a", .null)]])) ∧
    Eval Ex.env Oracle.id p3 (.arr [.int 1, .int 2, .int 3]) = some (.ok (some [.int 2, .int 3])) ∧
    Eval Ex.env Oracle.id p3 (.obj [(b! "a", .null)]) = some (.ok (some [])) ∧
    Eval Ex.env Oracle.id p2 Ex.doc = some (.ok (some [.int 2, .int 3])) :=
  ⟨_, _, _, ⟨⟨b! "$.*", rfl, rfl⟩, by decide⟩, ⟨⟨b! "$.*[?(@>1)]", rfl, rfl⟩, by decide⟩, ⟨⟨b! "$[?(@>1)]", rfl, rfl⟩, by decide⟩,
    run_of_runFuel 10 _ rfl, run_of_runFuel 20 _ rfl, run_of_runFuel 20 _ rfl, run_of_runFuel 30 _ rfl⟩

/-! ### C16 Map iteration order does not change the selected bag -/

/-- The full statement. -/
def OrderIrrelevant (env : Env) : Prop :=
  ∀ (text : Bytes) (p : JSONPath), Compile env text = .ok p → ∀ (root : V), root.WF →
    ∀ (oracle oracle' : Oracle), oracle.Valid → oracle'.Valid → ∀ vs, Eval env oracle p root = some (.ok (some vs)) →
    ∃ vs', Eval env oracle' p root = some (.ok (some vs')) ∧ vs.Perm vs'

/-- The oracle that iterates backwards. -/
def Oracle.reverse : Oracle := fun _ _ n => (List.range n).reverse

theorem Oracle.reverse_valid : Oracle.reverse.Valid := fun _ _ _ => List.reverse_perm _

/-- It is false: a slice discards what was selected before when it meets a value that is not an array, so that
the order matters: `$.*[0:1]` of `{"a": [null], "b": null}`. -/
theorem C16_order_matters_for_slices : ¬ OrderIrrelevant env := by
  intro h
  obtain ⟨vs, he, hp⟩ := h (b! "$.*[0:1]") _ rfl (.obj [(b! "a", .arr [.null]), (b! "b", .null)]) (by simp [V.WF, WFm, WFs])
    Oracle.id Oracle.reverse (fun _ _ _ => .refl _) Oracle.reverse_valid [] (run_of_runFuel 10 _ rfl)
  rw [show Eval env Oracle.reverse _ _ = some (.ok (some [.null])) from run_of_runFuel 10 _ rfl] at he
  cases he
  simpa using hp.length_eq

set_option maxHeartbeats 2000000 in
/-- It is also false because `keys` gives the names of the members in the order of iteration:
`$[?(keys(@)[0]=='a')]` of `[{"a": null, "b": null}]`. -/
theorem C16_order_matters_for_keys : ¬ OrderIrrelevant env := by
  intro h
  obtain ⟨vs, he, hp⟩ := h (b! "$[?(keys(@)[0]=='a')]") _ rfl (.arr [.obj [(b! "a", .null), (b! "b", .null)]])
    (by simp [V.WF, WFm, WFs]) Oracle.id Oracle.reverse (fun _ _ _ => .refl _) Oracle.reverse_valid
    [.obj [(b! "a", .null), (b! "b", .null)]] (run_of_runFuel 20 _ rfl)
  rw [show Eval env Oracle.reverse _ _ = some (.ok (some [])) from run_of_runFuel 20 _ rfl] at he
  cases he
  simpa using hp.length_eq

/-- For paths that do not call `keys`, and whose slices meet only arrays and have strides that fit: two
evaluations give the same values up to order, or both fail. -/
theorem C16_order_partial (p : JSONPath) (path : Path) (h : IsCompiled env p path) (hk : path.NoKeys)
    (root : V) (hr : root.WF) (hst : StridesFit root path) (hsl : SlicesMeetArrays env root path)
    (oracle oracle' : Oracle) (hv : oracle.Valid) (hv' : oracle'.Valid) :
    (∃ vs vs', Eval env oracle p root = some (.ok (some vs)) ∧ Eval env oracle' p root = some (.ok (some vs')) ∧ vs.Perm vs') ∨
    (∃ e e', Eval env oracle p root = some (.err e) ∧ Eval env oracle' p root = some (.err e')) := by
  rw [h.eval, h.eval]
  have := evalSteps_alike hr hv hv' path [] (h.wf) hk hst hsl (some [root]) (some [root]) 0 0 rfl (.refl _)
  unfold evalPath
  rcases this with ⟨o, t, o', t', h1, h2, hp⟩ | ⟨e, e', h1, h2⟩
  · rw [h1, h2]
    exact .inl ⟨_, _, rfl, rfl, hp⟩
  · rw [h1, h2]
    exact .inr ⟨e, e', rfl, rfl⟩

/-- In particular for paths without slices and without `keys`. -/
theorem C16_order_no_slices_partial (p : JSONPath) (path : Path) (h : IsCompiled env p path) (hk : path.NoKeys)
    (hno : ∀ s ∈ path, ¬ s.HasSlice) (root : V) (hr : root.WF) (oracle oracle' : Oracle) (hv : oracle.Valid) (hv' : oracle'.Valid) :
    (∃ vs vs', Eval env oracle p root = some (.ok (some vs)) ∧ Eval env oracle' p root = some (.ok (some vs')) ∧ vs.Perm vs') ∨
    (∃ e e', Eval env oracle p root = some (.err e) ∧ Eval env oracle' p root = some (.err e')) := by
  refine C16_order_partial env p path h hk root hr ?_ ?_ oracle oracle' hv hv'
  · rintro n ⟨s, hs, a, b, hm⟩
    exact absurd ⟨_, hm⟩ (hno s hs)
  · intro q s r heq hs
    exact absurd hs (hno s (by simp [heq]))

example : ∃ p path, IsCompiled Ex.env p path ∧ path.NoKeys ∧ (∀ s ∈ path, ¬ s.HasSlice) ∧
    Eval Ex.env Oracle.id p Ex.doc = some (.ok (some [.arr [.int 1, .int 2, .int 3], .obj [(b! "a", .null)], .int 1, .int 2, .int 3, .null])) ∧
    Eval Ex.env Oracle.reverse p Ex.doc = some (.ok (some [.obj [(b! "a", .null)], .arr [.int 1, .int 2, .int 3], .null, .int 1, .int 2, .int 3])) :=
  ⟨_, _, ⟨⟨b! "$..*", rfl, rfl⟩, by decide⟩, by intro s hs e he; simp at hs; subst hs; simp at he,
    by rintro s hs ⟨sl, h⟩; simp at hs; subst hs; simp at h, run_of_runFuel 20 _ rfl, run_of_runFuel 20 _ rfl⟩

/-- For C16_order_partial: a path with a slice that meets only arrays. -/
example : ∃ p path, IsCompiled Ex.env p path ∧ path.NoKeys ∧ SlicesMeetArrays Ex.env Ex.doc path ∧
    Eval Ex.env Oracle.id p Ex.doc = some (.ok (some [.int 1])) := by
  refine ⟨_, _, ⟨⟨b! "$.a[0:1]", rfl, rfl⟩, by decide⟩, ?_, ?_, run_of_runFuel 20 _ rfl⟩
  · intro s hs e he
    simp at hs
    rcases hs with rfl | rfl <;> simp at he
  · intro q s r heq hs oracle hv vs he v hvm
    match q, heq with
    | [], heq =>
      obtain ⟨rfl, _⟩ := List.cons.inj heq
      obtain ⟨sl, h⟩ := hs
      simp at h
    | [_], heq =>
      simp only [List.cons_append, List.nil_append, List.cons.injEq] at heq
      obtain ⟨rfl, rfl, _⟩ := heq
      have : evalPath Ex.env oracle Ex.doc [⟨.member, [.name (b! "a")]⟩] = .ok (some [.arr [.int 1, .int 2, .int 3]]) := rfl
      rw [this] at he
      cases he
      simp only [List.mem_singleton] at hvm
      subst hvm
      exact ⟨⟨_, rfl⟩, by simp⟩
    | _ :: _ :: _, heq => simp at heq

end JP
