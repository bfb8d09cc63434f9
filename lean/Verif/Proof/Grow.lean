import Verif.Spec.Grow
import Verif.Proof.Descent
import Mathlib.Data.List.Flatten
import Mathlib.Data.List.Perm.Basic
/-!
Paths of names, integers and `*`.
-/
namespace JP
open Spec

/-! ### What they select -/

theorem plainKey_sel {v : Val} (h : PlainKey v) : ∃ sel : Sel, sel.Is v ∧ (∀ w, sel.Fits w) ∧ ∀ w, sel.of w = keyed true v w := by
  cases h with
  | name s => exact ⟨.name s, .name s, fun _ => trivial, fun _ => rfl⟩
  | str s => exact ⟨.name s, .str s, fun _ => trivial, fun _ => rfl⟩
  | int n => exact ⟨.index n, .int n, fun _ => trivial, fun _ => rfl⟩

theorem plainKeys_sels : ∀ {vs : List Val}, (∀ v ∈ vs, PlainKey v) → ∃ sels : List Sel, All2 (fun v s => Sel.Is v s) vs sels ∧
    (∀ w, ∀ sel ∈ sels, sel.Fits w) ∧ ∀ w, (sels.flatMap fun sel => sel.of w) = vs.flatMap fun v => keyed true v w
  | [], _ => ⟨[], .nil, fun _ => nofun, fun _ => rfl⟩
  | v :: r, h => by
    obtain ⟨s, h1, h2, h3⟩ := plainKey_sel (h v (by simp))
    obtain ⟨ss, h4, h5, h6⟩ := plainKeys_sels (vs := r) fun w hw => h w (by simp [hw])
    refine ⟨s :: ss, .cons h1 h4, ?_, ?_⟩
    · intro w sel hs
      rcases List.mem_cons.1 hs with rfl | hs
      exacts [h2 w, h5 w _ hs]
    · intro w; simp only [List.flatMap_cons, h3, h6]

section
variable {env : Env} {oracle : Oracle} {root : V}

/-- The literal arguments of a step, and what a visit appends. -/
theorem plain_args {s : Step} (hs : PlainStep s) : ∃ sels, All2 (fun v sel => Sel.Is v sel) s.args sels := by
  cases hs with
  | wild => exact ⟨[], .nil⟩
  | member s => exact ⟨[.name s], .cons (.name s) .nil⟩
  | index n => exact ⟨[.index n], .cons (.int n) .nil⟩
  | select v h => obtain ⟨sel, h1, -⟩ := plainKey_sel h; exact ⟨[sel], .cons h1 .nil⟩
  | union vs h => obtain ⟨sels, h1, -⟩ := plainKeys_sels h; exact ⟨sels, h1⟩

theorem evalStep_plain {s : Step} (hv : oracle.Valid) (hs : PlainStep s) (out : GoSlice) (t : Nat) (hw : ∀ v ∈ out.elems, v.WF) :
    ∃ out' t', evalStep env oracle root s out t = .ok (out', t') ∧ out'.elems.Perm (out.elems.flatMap (stepOf s)) := by
  cases hs with
  | wild =>
    obtain ⟨parts, hp, o, ho, hel⟩ := applySelection_parts (R := Children)
      (f := fun k el acc => .ok (acc.appendAll (children (oracle t) [k] el))) out.elems 0 (some [])
      (fun v _ k acc => ⟨_, children_spec (hv t) [k] v, _, rfl, GoSlice.elems_appendAll _ _⟩)
    refine ⟨o, t + 1, ?_, ?_⟩
    · simp only [evalStep, ho, Res.bind_ok]
    · rw [hel]; exact allChildren_kids hp
  | member n =>
    obtain ⟨o, h1, h2⟩ := applySelection_flatMap (f := fun _ el acc => valsByKey env acc el (.name n) false) out.elems 0 (some [])
      (fun v hv _ acc => valsByKey_name (hw v hv) (.inl rfl))
    refine ⟨o, t, by simp only [evalStep, evalVals, evalVal, Res.bind_ok, isNothing]; exact congrArg (· >>= fun o => .ok (o, t)) h1, ?_⟩
    rw [h2]
    have : stepOf ⟨.member, [.name n]⟩ = memberOf n := by funext v; simp [stepOf, keyed]
    rw [this]; exact .refl _
  | index n =>
    obtain ⟨o, h1, h2⟩ := applySelection_flatMap (f := fun _ el acc => valsByKey env acc el (.int n) false) out.elems 0 (some [])
      (fun v hv _ acc => valsByKey_int (hw v hv))
    refine ⟨o, t, by simp only [evalStep, evalVals, evalVal, Res.bind_ok, isNothing]; exact congrArg (· >>= fun o => .ok (o, t)) h1, ?_⟩
    rw [h2]
    have : stepOf ⟨.member, [.int n]⟩ = indexOf false n.toInt := by funext v; simp [stepOf, keyed]
    rw [this]; exact .refl _
  | select a h =>
    obtain ⟨sel, e1, e2, e3⟩ := plainKey_sel h
    obtain ⟨o, h1, h2⟩ := applySelection_flatMap (f := fun _ el acc => valsByKey env acc el a.lit true) out.elems 0 (some [])
      (fun v hv _ acc => valsByKey_sel (hw v hv) e1 (e2 v))
    refine ⟨o, t, ?_, ?_⟩
    · simp only [evalStep, evalVals, evalVal_lit e1, lit_not_nothing e1, Res.bind_ok, Bool.false_eq_true, if_false]
      exact congrArg (· >>= fun o => .ok (o, t)) h1
    · rw [h2]
      have : stepOf ⟨.select, [a]⟩ = sel.of := by funext v; simp [stepOf, e3]
      rw [this]; exact .refl _
  | union vs h =>
    obtain ⟨sels, e1, e2, e3⟩ := plainKeys_sels h
    obtain ⟨o, h1, h2⟩ := applySelection_flatMap (f := fun _ el acc => unionByKeys env acc el (vs.map Val.lit)) out.elems 0 (some [])
      (fun v hv _ acc => unionByKeys_sels (hw v hv) e1 (e2 v) acc)
    refine ⟨o, t, ?_, ?_⟩
    · simp only [evalStep, evalVals_lit e1, Res.bind_ok]
      exact congrArg (· >>= fun o => .ok (o, t)) h1
    · rw [h2]
      have : stepOf ⟨.union, vs⟩ = fun v => sels.flatMap fun sel => sel.of v := by funext v; simp [stepOf, e3]
      rw [this]; exact .refl _

/-- A step that is not `*`, with `..`: what is selected of each value visited. -/
theorem visit_plain {s : Step} (hs : PlainStep s) (hn : s.op ≠ .wild) : ∃ f, (∀ v, stepOf (withDots s) v = (pre v).flatMap f) ∧
    (∀ v, isStructure v = false → f v = []) ∧
    ∀ v, v.WF → ∀ ord acc, Appends (visit env ord (withDots s).op v ((withDots s).args.map Val.lit) acc) acc (f v) := by
  cases hs with
  | wild => exact absurd rfl hn
  | member n =>
    refine ⟨memberOf n, fun v => ?_, fun v h => memberOf_none h, fun v hv ord acc => valsByKey_name hv (.inl rfl)⟩
    simp [stepOf, withDots, dotsOp, keyed]
  | index n =>
    refine ⟨indexOf false n.toInt, fun v => ?_, fun v h => indexOf_none h, fun v hv ord acc => valsByKey_int hv⟩
    simp [stepOf, withDots, dotsOp, keyed]
  | select a h =>
    obtain ⟨sel, e1, e2, e3⟩ := plainKey_sel h
    refine ⟨sel.of, fun v => ?_, fun v h' => ?_, fun v hv ord acc => ?_⟩
    · simp only [stepOf, withDots, dotsOp, List.flatMap_cons, List.flatMap_nil, List.append_nil]
      exact List.flatMap_congr fun w _ => (e3 w).symm
    · rw [e3]; cases h <;> first | exact memberOf_none h' | exact indexOf_none h'
    · simp only [withDots, dotsOp, visit, List.map_cons, List.map_nil, lit_not_nothing e1, Bool.false_eq_true, if_false]
      exact valsByKey_sel hv e1 (e2 v)
  | union vs h =>
    obtain ⟨sels, e1, e2, e3⟩ := plainKeys_sels h
    refine ⟨fun v => sels.flatMap fun sel => sel.of v, fun v => ?_, fun v h' => ?_, fun v hv ord acc => ?_⟩
    · simp [stepOf, withDots, dotsOp, e3]
    · simp only [e3, List.flatMap_eq_nil_iff]
      intro a ha
      cases h a ha <;> first | exact memberOf_none h' | exact indexOf_none h'
    · exact unionByKeys_sels hv e1 (e2 v) acc

theorem evalStep_dots {s : Step} (hv : oracle.Valid) (hs : PlainStep s) (out : GoSlice) (t : Nat) (hw : ∀ v ∈ out.elems, v.WF) :
    ∃ out' t', evalStep env oracle root (withDots s) out t = .ok (out', t') ∧ out'.elems.Perm (out.elems.flatMap (stepOf (withDots s))) := by
  have hwalk := walker_spec (hv t) out.elems 0
  have hwf : ∀ v ∈ walker (oracle t) 0 out.elems, v.WF := by
    intro v hv
    obtain ⟨src, hsrc, _, hd⟩ := mem_walker hv
    exact hd.wf (hw src hsrc)
  have hstep : evalStep env oracle root (withDots s) out t = loop env oracle root (withDots s) (walker (oracle t) 0 out.elems) out (t + 1) := by
    cases hs <;> rfl
  rw [hstep]
  unfold loop
  by_cases hem : out.elems.isEmpty = true
  · rw [if_pos hem]
    refine ⟨out, t + 1, rfl, ?_⟩
    simp only [List.isEmpty_iff] at hem
    rw [hem]; exact .refl _
  rw [if_neg hem]
  by_cases hwild : s.op = .wild
  · have hs' : withDots s = ⟨.nestWild, []⟩ := by cases hs <;> first | rfl | cases hwild
    have he : ∀ v, stepOf (withDots s) v = (pre v).flatMap kidsOf := by intro v; rw [hs']; rfl
    have hfl : out.elems.flatMap (stepOf (withDots s)) = (out.elems.flatMap pre).flatMap kidsOf := by
      rw [List.flatMap_assoc]; exact List.flatMap_congr fun v _ => he v
    rw [hfl]
    generalize walker (oracle t) 0 out.elems = l at hwalk
    have hp := (preOrders_pre hwalk).flatMap_right kidsOf
    cases l with
    | cons v r =>
      obtain ⟨parts, out', t', h1, h2, h3⟩ := visits_wild (env := env) (root := root) hv hs' (v :: r) (some []) (t + 1)
      refine ⟨out', t', ?_, ?_⟩
      · simp only [visited, List.isEmpty_cons, Bool.false_eq_true, if_false]; exact h2
      · rw [h3]; exact (allChildren_kids h1).trans hp
    | nil =>
      rw [hs']
      refine ⟨some [], t + 2, by simp [visited, visits, evalVals, visit, children, GoSlice.appendAll], ?_⟩
      exact hp
  · obtain ⟨f, h1, h2, h3⟩ := visit_plain (env := env) hs hwild
    obtain ⟨sels, hargs⟩ := plain_args hs
    have hargs' : All2 (fun v sel => Sel.Is v sel) (withDots s).args sels := hargs
    have hfl : out.elems.flatMap (stepOf (withDots s)) = (out.elems.flatMap pre).flatMap f := by
      rw [List.flatMap_assoc]; exact List.flatMap_congr fun v _ => h1 v
    rw [hfl]
    generalize walker (oracle t) 0 out.elems = l at hwalk hwf
    have hp := (preOrders_pre hwalk).flatMap_right f
    cases l with
    | cons v r =>
      obtain ⟨out', t', h4, h5⟩ := visits_flatMap (env := env) (oracle := oracle) (root := root) hargs' (v :: r) (some []) (t + 1)
        (fun v hv ord acc => h3 v (hwf v hv) ord acc)
      refine ⟨out', t', ?_, ?_⟩
      · simp only [visited, List.isEmpty_cons, Bool.false_eq_true, if_false]; exact h4
      · rw [h5]; exact hp
    | nil =>
      obtain ⟨out', t', h4, h5⟩ := visits_flatMap (env := env) (oracle := oracle) (root := root) hargs' [.null] (some []) (t + 1)
        (fun v hv ord acc => h3 v (by simp at hv; subst hv; trivial) ord acc)
      refine ⟨out', t', ?_, ?_⟩
      · simp only [visited, List.isEmpty_nil, if_true]; exact h4
      · rw [h5]; simp only [List.flatMap_cons, h2 .null rfl]; exact hp

theorem evalSteps_plain (hv : oracle.Valid) (hr : root.WF) : ∀ (q : Path), q.WF → PlainPath q → ∀ (out : GoSlice) (t : Nat),
    (∀ v ∈ out.elems, Desc root v) →
    ∃ out' t', evalSteps env oracle root q out t = .ok (out', t') ∧ out'.elems.Perm (out.elems.flatMap (pathOf q))
  | [], _, _, out, t, _ => ⟨out, t, rfl, by simp [pathOf]⟩
  | s :: r, hq, hp, out, t, hd => by
    have hw : ∀ v ∈ out.elems, v.WF := fun v h => (hd v h).wf hr
    obtain ⟨o, t1, h1, h2⟩ : ∃ out' t', evalStep env oracle root s out t = .ok (out', t') ∧ out'.elems.Perm (out.elems.flatMap (stepOf s)) := by
      rcases hp s (by simp) with h | ⟨s', h, rfl⟩
      · exact evalStep_plain hv h out t hw
      · exact evalStep_dots hv h out t hw
    have hf : ¬ s.op.isFilter = true := by
      rcases hp s (by simp) with h | ⟨s', h, rfl⟩ <;> cases h <;> simp [withDots, dotsOp, Op.isFilter]
    have hs := evalStep_safe (S := False) (N := False) (env := env) (oracle := oracle) (root := root) (s := s) (hq s (by simp)) (fun h => hf h)
      hr.noSlice hr.lens (fun _ _ h => h.elim) out t (fun v h => .inl (hd v h))
    rw [h1] at hs
    have hd' : ∀ v ∈ o.elems, Desc root v := by
      intro v hv
      rcases hs v hv with h | h
      · exact h
      · exact h.1.elim
    obtain ⟨o2, t2, h3, h4⟩ := evalSteps_plain hv hr r (fun x hx => hq x (by simp [hx])) (fun x hx => hp x (by simp [hx])) o t1 hd'
    refine ⟨o2, t2, by unfold evalSteps; rw [h1]; exact h3, ?_⟩
    refine h4.trans ((h2.flatMap_right _).trans ?_)
    rw [List.flatMap_assoc]
    exact .refl _

theorem evalPath_plain (hv : oracle.Valid) (hr : root.WF) (q : Path) (hq : q.WF) (hp : PlainPath q) :
    ∃ vs, evalPath env oracle root q = .ok (some vs) ∧ vs.Perm (pathOf q root) := by
  obtain ⟨o, t, h1, h2⟩ := evalSteps_plain (env := env) hv hr q hq hp (some [root]) 0 (by
    intro v h; simp [GoSlice.elems] at h; subst h; exact .root)
  refine ⟨o.elems, evalPath_ok_iff.2 ⟨o, t, h1, rfl⟩, ?_⟩
  simpa [GoSlice.elems] using h2

end

/-! ### Growing documents -/

theorem Spec.Kept.nil : Kept [] [] := ⟨[], [], .refl _, .nil⟩

theorem kept_of_nil (vs : List V) : Kept [] vs := ⟨[], vs, .refl _, .nil⟩

theorem Spec.Kept.append {a a' b b' : List V} (h : Kept a a') (h' : Kept b b') : Kept (a ++ b) (a' ++ b') := by
  obtain ⟨w, r, h1, h2⟩ := h
  obtain ⟨w', r', h3, h4⟩ := h'
  refine ⟨w ++ w', r ++ r', ?_, List.rel_append h2 h4⟩
  refine (h1.append h3).trans ?_
  simp only [List.append_assoc]
  refine List.Perm.append_left _ ?_
  rw [← List.append_assoc, ← List.append_assoc]
  exact List.perm_append_comm.append_right _

theorem Spec.Kept.perm_right {a b c : List V} (h : Kept a b) (hp : b.Perm c) : Kept a c := by
  obtain ⟨w, r, h1, h2⟩ := h
  exact ⟨w, r, hp.symm.trans h1, h2⟩

theorem Spec.Kept.perm_left {a b c : List V} (h : Kept a b) (hp : a.Perm c) : Kept c b := by
  obtain ⟨w, r, h1, h2⟩ := h
  obtain ⟨w', h3, h4⟩ := List.perm_comp_forall₂ hp.symm h2
  exact ⟨w', r, h1.trans (h4.symm.append_right _), h3⟩

theorem Spec.Kept.more {a b : List V} (h : Kept a b) (c : List V) : Kept a (b ++ c) := by
  simpa using h.append (kept_of_nil c)

theorem kept_flatMap2 {f : V → List V} {xs ys : List V} (h : List.Forall₂ GrowsTo xs ys) (hf : ∀ a ∈ xs, ∀ b, GrowsTo a b → Kept (f a) (f b)) :
    Kept (xs.flatMap f) (ys.flatMap f) := by
  induction h with
  | nil => exact .nil
  | cons h _ ih => exact (hf _ (by simp) _ h).append (ih fun a ha => hf a (by simp [ha]))

theorem kept_flatMap {f : V → List V} {xs ys : List V} (h : Kept xs ys) (hf : ∀ a ∈ xs, ∀ b, GrowsTo a b → Kept (f a) (f b)) :
    Kept (xs.flatMap f) (ys.flatMap f) := by
  obtain ⟨w, r, h1, h2⟩ := h
  have := (kept_flatMap2 h2 hf).more (r.flatMap f)
  rw [← List.flatMap_append] at this
  exact this.perm_right (h1.symm.flatMap_right f)

theorem grows_member {s : Bytes} : ∀ {ms ms' : List (Bytes × V)}, ms.map Prod.fst = ms'.map Prod.fst →
    List.Forall₂ GrowsTo (ms.map Prod.snd) (ms'.map Prod.snd) → List.Forall₂ GrowsTo (memberOf s (.obj ms)) (memberOf s (.obj ms'))
  | [], [], _, _ => .nil
  | [], _ :: _, h, _ => by cases h
  | _ :: _, [], h, _ => by cases h
  | (k, x) :: ms, (k', y) :: ms', h, h' => by
    simp only [List.map_cons, List.cons.injEq, List.forall₂_cons] at h h'
    have ih := grows_member (s := s) h.2 h'.2
    simp only [memberOf, List.filter_cons, h.1] at ih ⊢
    split
    · exact .cons h'.1 ih
    · exact ih

theorem kept_memberOf (s : Bytes) {a b : V} (h : GrowsTo a b) : Kept (memberOf s a) (memberOf s b) := by
  cases h with
  | scalar h => cases a <;> first | exact h.elim | exact .nil
  | arr => exact .nil
  | @obj ms ms' ns more hk h hp =>
    refine ⟨memberOf s (.obj ms'), memberOf s (.obj more), ?_, grows_member hk h⟩
    simp only [memberOf]
    rw [← List.map_append, ← List.filter_append]
    exact (hp.filter _).map _

theorem forall2_getElem? {α β : Type} {Q : α → β → Prop} {xs : List α} {ys : List β} (h : List.Forall₂ Q xs ys) (i : Nat) :
    List.Forall₂ Q xs[i]?.toList ys[i]?.toList := by
  induction h generalizing i with
  | nil => exact .nil
  | cons h _ ih =>
    cases i with
    | zero => exact .cons h .nil
    | succ i => simpa using ih i

theorem kept_indexOf (neg : Bool) (n : Int) (hn : 0 ≤ n) {a b : V} (h : GrowsTo a b) : Kept (indexOf neg n a) (indexOf neg n b) := by
  cases h with
  | scalar h => cases a <;> first | exact h.elim | exact .nil
  | @arr xs ys zs h =>
    have hl := h.length_eq
    simp only [indexOf, List.length_append]
    have hneg : ¬ (neg = true ∧ n < 0) := fun h => by omega
    simp only [if_neg hneg]
    by_cases hi : n < xs.length
    · rw [if_pos ⟨hn, hi⟩, if_pos ⟨hn, by push_cast; omega⟩, List.getElem?_append_left (by omega)]
      exact ⟨_, [], by simp, forall2_getElem? h _⟩
    · rw [if_neg (fun h => hi h.2)]; exact kept_of_nil _
  | obj hk h hp => exact kept_memberOf _ (.obj hk h hp)

theorem kept_kids {a b : V} (h : GrowsTo a b) : Kept (kidsOf a) (kidsOf b) := by
  cases h with
  | scalar h => cases a <;> first | exact h.elim | exact .nil
  | @arr xs ys zs h => exact ⟨ys, zs, .refl _, h⟩
  | @obj ms ms' ns more hk h hp =>
    refine ⟨ms'.map Prod.snd, more.map Prod.snd, ?_, h⟩
    rw [← List.map_append]
    exact hp.map _

mutual
theorem kept_pre : ∀ (a b : V), GrowsTo a b → Kept (pre a) (pre b)
  | .arr xs, b, h => by
    cases h with
    | scalar h => exact h.elim
    | @arr _ ys zs h =>
      have h1 := (kept_pres xs ys h).more (pres zs)
      simp only [pre, pres_eq, List.flatMap_append] at h1 ⊢
      exact Kept.append (a := [.arr xs]) (a' := [.arr (ys ++ zs)]) ⟨[.arr (ys ++ zs)], [], by simp, .cons (.arr h) .nil⟩ h1
  | .obj ms, b, h => by
    cases h with
    | scalar h => exact h.elim
    | @obj _ ms' ns more hk h hp =>
      have h1 := (kept_prem ms ms' h).more (prem more)
      have h2 : (prem ms' ++ prem more).Perm (prem ns) := by
        rw [prem_eq, prem_eq, prem_eq, ← List.flatMap_append, ← List.map_append]
        exact (hp.symm.map _).flatMap_right _
      simp only [pre]
      exact Kept.append (a := [.obj ms]) (a' := [.obj ns]) ⟨[.obj ns], [], by simp, .cons (.obj hk h hp) .nil⟩ (h1.perm_right h2)
  | .null, b, h | .bool _, b, h | .int _, b, h | .gint _, b, h | .float _, b, h | .str _, b, h | .num _, b, h
  | .name _, b, h | .re _, b, h | .slice _, b, h | .err _, b, h => by simp only [pre]; exact kept_of_nil _
theorem kept_pres : ∀ (xs ys : List V), List.Forall₂ GrowsTo xs ys → Kept (pres xs) (pres ys)
  | [], _, _ => by simp only [pres]; exact kept_of_nil _
  | x :: xs, _, h => by
    cases h with
    | cons h hs => simp only [pres]; exact (kept_pre x _ h).append (kept_pres xs _ hs)
theorem kept_prem : ∀ (ms ns : List (Bytes × V)), List.Forall₂ GrowsTo (ms.map Prod.snd) (ns.map Prod.snd) → Kept (prem ms) (prem ns)
  | [], _, _ => by simp only [prem]; exact kept_of_nil _
  | (k, x) :: ms, ns, h => by
    cases ns with
    | nil => cases h
    | cons n ns =>
      simp only [List.map_cons, List.forall₂_cons] at h
      simp only [prem]
      exact (kept_pre x _ h.1).append (kept_prem ms ns h.2)
end

theorem kept_keyed (neg : Bool) {a : Val} (ha : ∀ n, a = .int n → 0 ≤ n.toInt) {v w : V} (h : GrowsTo v w) : Kept (keyed neg a v) (keyed neg a w) := by
  cases a with
  | name s => exact kept_memberOf s h
  | str s => exact kept_memberOf s h
  | int n => exact kept_indexOf neg _ (ha n rfl) h
  | _ => exact .nil

theorem kept_args (neg : Bool) (as : List Val) (ha : ∀ n, Val.int n ∈ as → 0 ≤ n.toInt) {v w : V} (h : GrowsTo v w) :
    Kept (as.flatMap fun a => keyed neg a v) (as.flatMap fun a => keyed neg a w) := by
  induction as with
  | nil => exact .nil
  | cons a r ih => exact (kept_keyed neg (fun n e => ha n (by simp [e])) h).append (ih fun n hn => ha n (by simp [hn]))

theorem kept_step {s : Step} (hs : ∀ n, Val.int n ∈ s.args → 0 ≤ n.toInt) {v w : V} (h : GrowsTo v w) : Kept (stepOf s v) (stepOf s w) := by
  unfold stepOf
  split
  · exact kept_kids h
  · exact kept_args false _ hs h
  · exact kept_args true _ hs h
  · exact kept_args true _ hs h
  · exact kept_flatMap (kept_pre v w h) fun a _ b hab => kept_kids hab
  · exact kept_flatMap (kept_pre v w h) fun a _ b hab => kept_args false _ hs hab
  · exact kept_flatMap (kept_pre v w h) fun a _ b hab => kept_args true _ hs hab
  · exact kept_flatMap (kept_pre v w h) fun a _ b hab => kept_args true _ hs hab
  · exact .nil

theorem kept_path : ∀ (q : Path), NonNegative q → ∀ {v w : V}, GrowsTo v w → Kept (pathOf q v) (pathOf q w)
  | [], _, v, w, h => ⟨[w], [], by simp [pathOf], .cons h .nil⟩
  | s :: r, hq, v, w, h =>
    kept_flatMap (kept_step (hq s (by simp)) h) fun a _ b hab => kept_path r (fun x hx => hq x (by simp [hx])) hab

end JP
