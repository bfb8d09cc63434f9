import Verif.Proof.Notation
import Verif.Props.Values
import Verif.Props.Steps
import Verif.Props.Ex
import Verif.Proof.KRfl
/-!
Laws of paths: different notations for the same step (C60) and the algebra of filters (C61).
-/
namespace JP
open Spec

variable (env : Env)

/-! ### C60 Notations are interchangeable -/

/-- Paths that differ only in the notation of their steps give the same result: the same values in the same
order, or the same error. -/
theorem C60_same (p p' : JSONPath) (q q' : Path) (h : All2 SameStep q q') (hp : IsCompiled env p q) (hp' : IsCompiled env p' q')
    (oracle : Oracle) (root : V) : Eval env oracle p root = Eval env oracle p' root := by
  rw [hp.eval, hp'.eval]
  unfold evalPath
  rw [sameSteps_eval h]

/-- `$['a'][0:2,'b']` and `$.a[:2:1,b]`. -/
example : ∃ p p' q q', IsCompiled Ex.env p q ∧ IsCompiled Ex.env p' q' ∧ All2 SameStep q q' ∧
    Eval Ex.env Oracle.id p Ex.doc = some (.ok (some [.int 1, .int 2])) ∧ q ≠ q' := by
  refine ⟨_, _, [⟨.select, [.str (b! "a")]⟩, ⟨.union, [.slice ⟨some (.int 0), some (.int 2), none⟩, .str (b! "b")]⟩],
    [⟨.member, [.name (b! "a")]⟩, ⟨.union, [.slice ⟨none, some (.int 2), some (.int 1)⟩, .name (b! "b")]⟩],
    ⟨⟨b! "$['a'][0:2,'b']", rfl, rfl⟩, by decide⟩, ⟨⟨b! "$.a[:2:1,b]", rfl, rfl⟩, by decide⟩, ?_, ?_, by simp⟩
  · exact .cons (.trans (.select (.bare _)) (.symm (.name _)))
      (.cons (.union (.cons (.symm (.trans (.start _ _ (fun x hx => ⟨1, by cases hx; rfl, by decide⟩)) (.symm (.stride _ _))))
        (.cons (.bare _) .nil))) .nil)
  · exact run_of_runFuel 40 _ rfl

/-- With a negative index the dot and the brackets differ: `$[-1]` selects the last element, `$.-1` nothing. -/
theorem C60_negative_differs : ∃ p p', IsCompiled env p [⟨.select, [.int (-1)]⟩] ∧ IsCompiled env p' [⟨.member, [.int (-1)]⟩] ∧
    ∀ oracle, Eval env oracle p (.arr [.null]) = some (.ok (some [.null])) ∧ Eval env oracle p' (.arr [.null]) = some (.ok (some [])) :=
  ⟨_, _, ⟨⟨b! "$[-1]", rfl, rfl⟩, by decide⟩, ⟨⟨b! "$.-1", rfl, rfl⟩, by decide⟩,
    fun _ => ⟨run_of_runFuel 10 _ (by krfl), run_of_runFuel 10 _ (by krfl)⟩⟩

/-- Inside expressions they differ as well: `$[?(@.a)]` selects nothing from `[[true]]`, and `$[?(@['a'])]` selects
the inner array. -/
theorem C60_expressions_differ : ∃ p p', IsCompiled env p [⟨.filter, [.expr (.inner .dot [.current, .name (b! "a")])]⟩] ∧
    IsCompiled env p' [⟨.filter, [.expr (.inner .index [.current, .str (b! "a")])]⟩] ∧
    ∀ oracle, Eval env oracle p (.arr [.arr [.bool true]]) = some (.ok (some [])) ∧
      Eval env oracle p' (.arr [.arr [.bool true]]) = some (.ok (some [.arr [.bool true]])) :=
  ⟨_, _, ⟨⟨b! "$[?(@.a)]", rfl, rfl⟩, by decide⟩, ⟨⟨b! "$[?(@['a'])]", rfl, rfl⟩, by decide⟩,
    fun _ => ⟨run_of_runFuel 10 _ rfl, run_of_runFuel 10 _ rfl⟩⟩

/-! ### C61 The algebra of filters -/

/-- The expression has a value for every candidate, whatever the state of map iteration, and `f` tells whether
the value is truthy. -/
private def Decides (env : Env) (oracle : Oracle) (root : V) (e : Expr) (f : V → Bool) (l : List V) : Prop :=
  ∀ c ∈ l, ∃ v, (∀ t, ∃ t', evalExpr env oracle root c e t = .ok (v, t')) ∧ truthy env v = f c

variable {env} {oracle : Oracle} {root : V}

private theorem visits_decided {e : Expr} {f : V → Bool} : ∀ {l : List V}, Decides env oracle root e f l → ∀ (out : GoSlice) (t : Nat),
    ∃ o t', visits env oracle root ⟨.filter, [.expr e]⟩ l out t = .ok (o, t') ∧ o.elems = out.elems ++ l.filter f
  | [], _, out, t => ⟨out, t, rfl, by simp⟩
  | c :: r, h, out, t => by
    obtain ⟨v, hv, hf⟩ := h c (by simp)
    obtain ⟨t1, ht⟩ := hv t
    unfold visits
    simp only [evalVals, evalVal, ht, Res.bind_ok, visit]
    unfold truthy at hf
    rw [hf]
    obtain ⟨o, t', ho, he⟩ := visits_decided (l := r) (fun x hx => h x (by simp [hx])) (if f c = true then out.append c else out) t1
    refine ⟨o, t', ho, ?_⟩
    rw [he, List.filter_cons]
    split <;> simp [GoSlice.elems_append]

/-- Whether a filter keeps a candidate, if its expression has a value. -/
private def keeps (env : Env) (oracle : Oracle) (root : V) (e : Expr) (c : V) : Bool :=
  match evalExpr env oracle root c e 0 with
  | .ok (v, _) => truthy env v
  | _ => false

private theorem decides_of_visits {e : Expr} (hw : e.WF) (hk : e.noKeys = true) : ∀ {l : List V} {out : GoSlice} {t : Nat} {r : GoSlice × Nat},
    visits env oracle root ⟨.filter, [.expr e]⟩ l out t = .ok r → Decides env oracle root e (keeps env oracle root e) l
  | [], _, _, _, _ => fun c hc => absurd hc (by simp)
  | c :: r, out, t, x, h => by
    unfold visits at h
    obtain ⟨⟨vs, t1⟩, h1, h⟩ := bind_eq_ok h
    obtain ⟨o, _, h⟩ := bind_eq_ok h
    intro d hd
    rcases List.mem_cons.1 hd with rfl | hd
    · simp only [evalVals, evalVal] at h1
      obtain ⟨⟨v, t2⟩, h2, -⟩ := bind_eq_ok h1
      have hall : ∀ t, ∃ t', evalExpr env oracle root d e t = .ok (v, t') := by
        intro t'
        have := evalExpr_noKeys (env := env) (oracle := oracle) (oracle' := oracle) (root := root) (dot := d) e hw hk t' t
        rw [h2] at this
        match hr : evalExpr env oracle root d e t' with
        | .ok (w, t3) => rw [hr] at this; cases this; exact ⟨_, rfl⟩
        | .err _ | .panic _ | .stuck => rw [hr] at this; cases this
      refine ⟨v, hall, ?_⟩
      obtain ⟨t', h0⟩ := hall 0
      simp only [keeps, h0]
    · exact decides_of_visits hw hk h d hd

private theorem truthy_or (a b : V) : truthy env (opOr env a b) = (truthy env a || truthy env b) := by
  have hn : isNothing .nothing = true := rfl
  unfold opOr truthy
  cases ha : isNothing a <;> cases hb : isNothing b <;> cases hc : cvb env a <;> simp [ha, hb, hc, hn]

private theorem truthy_and (a b : V) : truthy env (opAnd env a b) = (truthy env a && truthy env b) := by
  unfold opAnd truthy
  cases ha : isNothing a <;> cases hb : isNothing b <;> cases hc : cvb env a <;> simp [ha, hb, hc]

private theorem decides_two {op : Op} {a b : Expr} {f g : V → Bool} {l : List V} (ha : Decides env oracle root a f l)
    (hb : Decides env oracle root b g l) {h : V → V → V} (hop : ∀ o x y, applyOp env o op [x, y] = .ok (h x y)) (hc : op ≠ .call)
    {k : Bool → Bool → Bool} (hk : ∀ x y, truthy env (h x y) = k (truthy env x) (truthy env y)) :
    Decides env oracle root (.inner op [a, b]) (fun c => k (f c) (g c)) l := by
  intro c hcm
  obtain ⟨v, hv, hf⟩ := ha c hcm
  obtain ⟨w, hw, hg⟩ := hb c hcm
  refine ⟨h v w, fun t => ?_, by rw [hk, hf, hg]⟩
  obtain ⟨t1, h1⟩ := hv t
  obtain ⟨t2, h2⟩ := hw t1
  exact ⟨t2, by simp only [evalExpr, evalKids, h1, h2, Res.bind_ok, hop, if_neg hc]⟩

private theorem decides_not {a : Expr} {f : V → Bool} {l : List V} (ha : Decides env oracle root a f l) :
    Decides env oracle root (.inner .not [a]) (fun c => !f c) l := by
  intro c hcm
  obtain ⟨v, hv, hf⟩ := ha c hcm
  refine ⟨.bool (!cvb env v), fun t => ?_, ?_⟩
  · obtain ⟨t1, h1⟩ := hv t
    exact ⟨t1, by simp [evalExpr, evalKids, h1, applyOp, unop]⟩
  · show _ = !f c
    rw [← hf]
    unfold truthy
    cases v <;> simp [isNothing, cvb]

private theorem filter_of_decides {e : Expr} {f : V → Bool} {out : GoSlice} {t : Nat}
    (h : Decides env oracle root e f (visited (stepping (oracle t) 0 out.elems))) :
    stepResult (evalStep env oracle root ⟨.filter, [.expr e]⟩ out t) =
      .ok (some (if out.elems = [] then [] else (visited (stepping (oracle t) 0 out.elems)).filter f)) := by
  show stepResult (loop env oracle root ⟨.filter, [.expr e]⟩ (stepping (oracle t) 0 out.elems) out (t + 1)) = _
  unfold loop
  by_cases he : out.elems = []
  · simp [he, stepResult]
  · rw [if_neg (by simpa using he), if_neg he]
    obtain ⟨o, t', ho, hel⟩ := visits_decided h (some []) (t + 1)
    rw [ho]
    simp only [stepResult, Res.bind_ok, hel]
    rfl

private theorem decides_of_filter {e : Expr} (hw : e.WF) (hk : e.noKeys = true) {out : GoSlice} {t : Nat} {res : List V}
    (hne : out.elems ≠ []) (h : stepResult (evalStep env oracle root ⟨.filter, [.expr e]⟩ out t) = .ok (some res)) :
    Decides env oracle root e (keeps env oracle root e) (visited (stepping (oracle t) 0 out.elems)) := by
  have h : stepResult (loop env oracle root ⟨.filter, [.expr e]⟩ (stepping (oracle t) 0 out.elems) out (t + 1)) = _ := h
  unfold loop at h
  rw [if_neg (by simpa using hne)] at h
  unfold stepResult at h
  obtain ⟨x, hx, -⟩ := bind_eq_ok h
  exact decides_of_visits hw hk hx

private theorem eval_after {p2 : JSONPath} {q : Path} {s : Step} (h2 : IsCompiled env p2 (q ++ [s])) {out : GoSlice} {t : Nat}
    (ho : evalSteps env oracle root q (some [root]) 0 = .ok (out, t)) :
    Eval env oracle p2 root = some (stepResult (evalStep env oracle root s out t)) := by
  rw [h2.eval oracle root]
  unfold evalPath
  rw [evalSteps_append, ho]
  simp only [Res.bind_ok, evalSteps, stepResult, Option.some.injEq]
  cases evalStep env oracle root s out t <;> rfl

private theorem wild_stepping (o : Ord) : ∀ (l : List V) (k : Nat) (acc : GoSlice), ∃ r : GoSlice,
    applySelection (fun k el acc => .ok (acc.appendAll (children o [k] el))) k acc l = .ok r ∧ r.elems = acc.elems ++ stepping o k l
  | [], k, acc => ⟨acc, rfl, by simp [stepping]⟩
  | v :: r, k, acc => by
    obtain ⟨x, hx, he⟩ := wild_stepping o r (k + 1) (acc.appendAll (children o [k] v))
    refine ⟨x, hx, ?_⟩
    rw [he, GoSlice.elems_appendAll, stepping, List.append_assoc]

private theorem eval_wild {pw : JSONPath} {q : Path} (hpw : IsCompiled env pw (q ++ [⟨.wild, []⟩])) {out : GoSlice} {t : Nat}
    (ho : evalSteps env oracle root q (some [root]) 0 = .ok (out, t)) :
    Eval env oracle pw root = some (.ok (some (stepping (oracle t) 0 out.elems))) := by
  obtain ⟨w, hw, hwe⟩ := wild_stepping (oracle t) out.elems 0 (some [])
  rw [eval_after hpw ho]
  unfold evalStep stepResult
  simp only [hw, Res.bind_ok, hwe]
  rfl

private theorem filter_wf {p : JSONPath} {q : Path} {e : Expr} (h : IsCompiled env p (q ++ [⟨.filter, [.expr e]⟩])) : e.WF := by
  have := (h.wf ⟨.filter, [.expr e]⟩ (by simp)).1 (.expr e) (by simp)
  simpa [Val.WF] using this

variable (env)

/-- The filters `[?(a)]`, `[?(b)]`, `[?(a && b)]`, `[?(a || b)]` and `[?(!a)]` after the same path consider the same
candidates in the same order, and keep those that satisfy `a`, `b`, both, one of them, and not `a`.  If the first
two succeed, so do the others.  The candidates are what `[*]` selects there, unless that is nothing. -/
theorem C61_algebra (oracle : Oracle) (q : Path) (a b : Expr) (p1 pw pa pb pand por pnot : JSONPath)
    (h1 : IsCompiled env p1 q) (hpw : IsCompiled env pw (q ++ [⟨.wild, []⟩]))
    (ha : IsCompiled env pa (q ++ [⟨.filter, [.expr a]⟩])) (hb : IsCompiled env pb (q ++ [⟨.filter, [.expr b]⟩]))
    (hand : IsCompiled env pand (q ++ [⟨.filter, [.expr (.inner .and [a, b])]⟩]))
    (hor : IsCompiled env por (q ++ [⟨.filter, [.expr (.inner .or [a, b])]⟩]))
    (hnot : IsCompiled env pnot (q ++ [⟨.filter, [.expr (.inner .not [a])]⟩]))
    (hka : a.noKeys = true) (hkb : b.noKeys = true) (root : V) (vs ra rb : List V)
    (he : Eval env oracle p1 root = some (.ok (some vs))) (hra : Eval env oracle pa root = some (.ok (some ra)))
    (hrb : Eval env oracle pb root = some (.ok (some rb))) :
    ∃ (ws cs : List V) (f g : V → Bool), Eval env oracle pw root = some (.ok (some ws)) ∧ (ws ≠ [] → cs = ws) ∧
      ra = cs.filter f ∧ rb = cs.filter g ∧
      Eval env oracle pand root = some (.ok (some (cs.filter fun c => f c && g c))) ∧
      Eval env oracle por root = some (.ok (some (cs.filter fun c => f c || g c))) ∧
      Eval env oracle pnot root = some (.ok (some (cs.filter fun c => !f c))) := by
  rw [h1.eval] at he
  simp only [Option.some.injEq] at he
  obtain ⟨out, t, ho, rfl⟩ := evalPath_ok_iff.1 he
  rw [eval_wild hpw ho, eval_after hand ho, eval_after hor ho, eval_after hnot ho]
  rw [eval_after ha ho] at hra
  rw [eval_after hb ho] at hrb
  simp only [Option.some.injEq] at hra hrb ⊢
  by_cases hne : out.elems = []
  · have hs : stepping (oracle t) 0 out.elems = [] := by rw [hne]; rfl
    have hf : ∀ e, stepResult (evalStep env oracle root ⟨.filter, [.expr e]⟩ out t) = .ok (some []) := by
      intro e
      show stepResult (loop env oracle root ⟨.filter, [.expr e]⟩ (stepping (oracle t) 0 out.elems) out (t + 1)) = _
      unfold loop
      simp [hne, stepResult]
    rw [hf] at hra hrb
    cases hra; cases hrb
    exact ⟨_, [], fun _ => true, fun _ => true, rfl, fun h => absurd hs h, rfl, rfl, hf _, hf _, hf _⟩
  · have da := decides_of_filter (filter_wf ha) hka hne hra
    have db := decides_of_filter (filter_wf hb) hkb hne hrb
    have fin : ∀ {e f}, Decides env oracle root e f (visited (stepping (oracle t) 0 out.elems)) →
        stepResult (evalStep env oracle root ⟨.filter, [.expr e]⟩ out t) =
          .ok (some ((visited (stepping (oracle t) 0 out.elems)).filter f)) := by
      intro e f h
      rw [filter_of_decides h, if_neg hne]
    rw [fin da] at hra
    rw [fin db] at hrb
    cases hra; cases hrb
    refine ⟨_, visited (stepping (oracle t) 0 out.elems), keeps env oracle root a, keeps env oracle root b, rfl, ?_, rfl, rfl,
      fin (decides_two da db (h := opAnd env) (k := (· && ·)) (fun _ _ _ => rfl) (by simp) truthy_and),
      fin (decides_two da db (h := opOr env) (k := (· || ·)) (fun _ _ _ => rfl) (by simp) truthy_or),
      fin (decides_not da)⟩
    intro hn
    unfold visited
    rw [if_neg (by simpa using hn)]

example := C61_algebra Ex.env Oracle.id [⟨.member, [.name (b! "a")]⟩] .current (.bool false) _ _ _ _ _ _ _ ⟨⟨b! "$.a", rfl, rfl⟩, by decide⟩
  ⟨⟨b! "$.a[*]", rfl, rfl⟩, by decide⟩ ⟨⟨b! "$.a[?(@)]", rfl, rfl⟩, by decide⟩ ⟨⟨b! "$.a[?(false)]", rfl, rfl⟩, by decide⟩
  ⟨⟨b! "$.a[?(@&&false)]", rfl, rfl⟩, by decide⟩ ⟨⟨b! "$.a[?(@||false)]", rfl, rfl⟩, by decide⟩ ⟨⟨b! "$.a[?(!@)]", rfl, rfl⟩, by decide⟩
  rfl rfl Ex.doc _ _ _ (run_of_runFuel 10 _ rfl) (run_of_runFuel 40 _ rfl) (run_of_runFuel 40 _ rfl)

/-- The full statement of another law: `[?(a)]` and `[?(!a)]` share what `[*]` selects between them. -/
def FiltersPartition (env : Env) : Prop :=
  ∀ (oracle : Oracle) (q : Path) (a : Expr) (p1 pw pa pnot : JSONPath), IsCompiled env p1 q →
    IsCompiled env pw (q ++ [⟨.wild, []⟩]) → IsCompiled env pa (q ++ [⟨.filter, [.expr a]⟩]) →
    IsCompiled env pnot (q ++ [⟨.filter, [.expr (.inner .not [a])]⟩]) → a.noKeys = true → ∀ (root : V) (vs ra : List V),
    Eval env oracle p1 root = some (.ok (some vs)) → Eval env oracle pa root = some (.ok (some ra)) →
    ∃ ws rn, Eval env oracle pw root = some (.ok (some ws)) ∧ Eval env oracle pnot root = some (.ok (some rn)) ∧ (ra ++ rn).Perm ws

/-- It is false when there is nothing to test, since one of the two filters then selects a null: `$[?(true)]` of `[]`. -/
theorem C61_partition_fails : ¬ FiltersPartition env := by
  intro h
  obtain ⟨ws, rn, h1, h2, hp⟩ := h Oracle.id [] (.bool true) _ _ _ _ ⟨⟨b! "$", rfl, rfl⟩, by decide⟩ ⟨⟨b! "$[*]", rfl, rfl⟩, by decide⟩
    ⟨⟨b! "$[?(true)]", rfl, rfl⟩, by decide⟩ ⟨⟨b! "$[?(!true)]", rfl, rfl⟩, by decide⟩ rfl (.arr []) [.arr []] [.null]
    (run_of_runFuel 10 _ rfl) (run_of_runFuel 20 _ rfl)
  rw [show Eval env Oracle.id _ _ = some (.ok (some [])) from run_of_runFuel 10 _ rfl] at h1
  cases h1
  simpa using hp.length_eq

/-- It holds whenever `[*]` selects something there. -/
theorem C61_partition_partial (oracle : Oracle) (q : Path) (a : Expr) (p1 pw pa pnot : JSONPath) (h1 : IsCompiled env p1 q)
    (hpw : IsCompiled env pw (q ++ [⟨.wild, []⟩])) (ha : IsCompiled env pa (q ++ [⟨.filter, [.expr a]⟩]))
    (hnot : IsCompiled env pnot (q ++ [⟨.filter, [.expr (.inner .not [a])]⟩])) (hka : a.noKeys = true) (root : V) (vs ra ws : List V)
    (he : Eval env oracle p1 root = some (.ok (some vs))) (hra : Eval env oracle pa root = some (.ok (some ra)))
    (hw : Eval env oracle pw root = some (.ok (some ws))) (hne : ws ≠ []) :
    ∃ rn, Eval env oracle pnot root = some (.ok (some rn)) ∧ (ra ++ rn).Perm ws := by
  rw [h1.eval] at he
  simp only [Option.some.injEq] at he
  obtain ⟨out, t, ho, rfl⟩ := evalPath_ok_iff.1 he
  rw [eval_wild hpw ho] at hw
  cases hw
  rw [eval_after hnot ho]
  rw [eval_after ha ho] at hra
  simp only [Option.some.injEq] at hra ⊢
  have hoe : out.elems ≠ [] := by
    intro h
    rw [h] at hne
    exact hne rfl
  have hvis : visited (stepping (oracle t) 0 out.elems) = stepping (oracle t) 0 out.elems := by
    unfold visited
    rw [if_neg (by simpa using hne)]
  have da := decides_of_filter (filter_wf ha) hka hoe hra
  rw [filter_of_decides da, if_neg hoe, hvis] at hra
  cases hra
  refine ⟨_, by rw [filter_of_decides (decides_not da), if_neg hoe, hvis], ?_⟩
  exact List.filter_append_perm _ _

/-- `$.a[?(@>1)]`, `$.a[?(@<3)]` and their combinations. -/
example : ∃ p1 pw pa pb pand por pnot : JSONPath, IsCompiled Ex.env p1 [⟨.member, [.name (b! "a")]⟩] ∧
    IsCompiled Ex.env pw ([⟨.member, [.name (b! "a")]⟩] ++ [⟨.wild, []⟩]) ∧
    IsCompiled Ex.env pa ([⟨.member, [.name (b! "a")]⟩] ++ [⟨.filter, [.expr (.inner .gt [.current, .int 1])]⟩]) ∧
    IsCompiled Ex.env pb ([⟨.member, [.name (b! "a")]⟩] ++ [⟨.filter, [.expr (.inner .lt [.current, .int 3])]⟩]) ∧
    IsCompiled Ex.env pand ([⟨.member, [.name (b! "a")]⟩] ++
      [⟨.filter, [.expr (.inner .and [.inner .gt [.current, .int 1], .inner .lt [.current, .int 3]])]⟩]) ∧
    IsCompiled Ex.env por ([⟨.member, [.name (b! "a")]⟩] ++
      [⟨.filter, [.expr (.inner .or [.inner .gt [.current, .int 1], .inner .lt [.current, .int 3]])]⟩]) ∧
    IsCompiled Ex.env pnot ([⟨.member, [.name (b! "a")]⟩] ++ [⟨.filter, [.expr (.inner .not [.inner .gt [.current, .int 1]])]⟩]) ∧
    Eval Ex.env Oracle.id pa Ex.doc = some (.ok (some [.int 2, .int 3])) ∧
    Eval Ex.env Oracle.id pb Ex.doc = some (.ok (some [.int 1, .int 2])) ∧
    Eval Ex.env Oracle.id pnot Ex.doc = some (.ok (some [.int 1])) := by
  obtain ⟨pand, -, hand⟩ := compiled_of_parse (env := Ex.env) (text := b! "$.a[?(@>1&&@<3)]") (q := [⟨.member, [.name (b! "a")]⟩] ++
      [⟨.filter, [.expr (.inner .and [.inner .gt [.current, .int 1], .inner .lt [.current, .int 3]])]⟩]) (by krfl) (by simp)
  obtain ⟨por, -, hor⟩ := compiled_of_parse (env := Ex.env) (text := b! "$.a[?(@>1||@<3)]") (q := [⟨.member, [.name (b! "a")]⟩] ++
      [⟨.filter, [.expr (.inner .or [.inner .gt [.current, .int 1], .inner .lt [.current, .int 3]])]⟩]) (by krfl) (by simp)
  exact ⟨_, _, _, _, pand, por, _, ⟨⟨b! "$.a", rfl, rfl⟩, by decide⟩, ⟨⟨b! "$.a[*]", rfl, rfl⟩, by decide⟩,
    ⟨⟨b! "$.a[?(@>1)]", rfl, rfl⟩, by decide⟩, ⟨⟨b! "$.a[?(@<3)]", rfl, rfl⟩, by decide⟩, hand, hor,
    ⟨⟨b! "$.a[?(!(@>1))]", rfl, rfl⟩, by decide⟩, run_of_runFuel 40 _ (by krfl), run_of_runFuel 40 _ (by krfl),
    run_of_runFuel 40 _ (by krfl)⟩

end JP
