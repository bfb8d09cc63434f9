import Verif.Spec.Presence
import Verif.Proof.Shape
/-!
Evaluation of paths whose filters test for presence.
-/
namespace JP
open Spec

section
variable {env : Env} {R : V → V → Prop} (hR : KeepsTruth env R)
include hR

mutual
theorem sameShape_refl : ∀ v : V, SameShape R v v
  | .arr xs => .arr (shapes_refl xs)
  | .obj ms => .obj rfl (shapesm_refl ms)
  | .null | .bool _ | .int _ | .gint _ | .float _ | .str _ | .num _ | .name _ | .re _ | .slice _ | .err _ =>
    .scalar trivial trivial (hR.refl _ trivial)
theorem shapes_refl : ∀ xs : List V, Shapes R xs xs
  | [] => .nil
  | x :: xs => .cons (sameShape_refl x) (shapes_refl xs)
theorem shapesm_refl : ∀ ms : List (Bytes × V), Shapes R (ms.map Prod.snd) (ms.map Prod.snd)
  | [] => .nil
  | (_, x) :: ms => .cons (sameShape_refl x) (shapesm_refl ms)
end

theorem shape_nothing {a b : V} (h : SameShape R a b) : isNothing a = isNothing b := by
  cases h with
  | scalar ha hb h =>
    rcases hR.keeps _ _ h with rfl | ⟨h1, h2, -⟩
    · rfl
    · cases a <;> first | exact h1.elim | (cases b <;> first | exact h2.elim | rfl)
  | arr => rfl
  | obj => rfl

theorem shape_cvb {a b : V} (h : SameShape R a b) : cvb env a = cvb env b := by
  cases h with
  | scalar ha hb h =>
    rcases hR.keeps _ _ h with rfl | ⟨h1, h2, h3⟩
    · rfl
    · have n1 : isNothing a = false := by cases a <;> first | exact h1.elim | rfl
      have n2 : isNothing b = false := by cases b <;> first | exact h2.elim | rfl
      unfold truthy at h3
      rw [n1, n2] at h3
      simpa using h3
  | arr => rfl
  | obj => rfl

theorem shape_getD {o o' : Option V} (h : Option.Rel (SameShape R) o o') : SameShape R (o.getD .nothing) (o'.getD .nothing) := by
  cases h with
  | none => exact sameShape_refl hR _
  | some h => exact h

theorem opDot_shape {a b : V} (h : SameShape R a b) (s : Bytes) : RelRes (SameShape R) (opDot env a (.name s)) (opDot env b (.name s)) := by
  have hz := shape_nothing hR h
  unfold opDot
  rw [← hz]
  split
  · exact .ok (sameShape_refl hR _)
  simp only
  cases h with
  | scalar ha hb h =>
    rcases hR.keeps _ _ h with rfl | ⟨h1, h2, -⟩
    · split <;> cases a <;> first | exact ha.elim | exact .ok (sameShape_refl hR _)
    · split <;> cases a <;> first | exact h1.elim | (cases b <;> first | exact h2.elim | exact .ok (sameShape_refl hR _))
  | arr h =>
    split
    · simp only [h.length_eq]; exact .ok (sameShape_refl hR _)
    · exact .ok (sameShape_refl hR _)
  | obj hk h =>
    split
    · have hl := congrArg List.length hk
      simp only [List.length_map] at hl
      simp only [hl]; exact .ok (sameShape_refl hR _)
    · exact .ok (shape_getD hR (valByKey_shape env (.obj hk h) rfl _ _))

theorem opIndex_shape {a b : V} (h : SameShape R a b) (k : V) : SameShape R (opIndex env a k) (opIndex env b k) := by
  have hz := shape_nothing hR h
  unfold opIndex
  rw [← hz]
  split
  · exact sameShape_refl hR _
  cases h with
  | scalar ha hb h =>
    cases a <;> first | exact ha.elim | (cases b <;> first | exact hb.elim | exact sameShape_refl hR _)
  | arr h =>
    simp only [h.length_eq]
    generalize (if cvi env k < 0 then _ else _ : Int64) = i
    split
    · exact sameShape_refl hR _
    · exact shape_getD hR (goIndex_shape h _)
  | obj hk h => exact shape_getD hR (valByKey_shape env (.obj hk h) rfl _ _)

theorem opOr_shape {a b c d : V} (h : SameShape R a b) (h' : SameShape R c d) : SameShape R (opOr env a c) (opOr env b d) := by
  unfold opOr
  rw [shape_nothing hR h, shape_nothing hR h', shape_cvb hR h]
  split
  · exact sameShape_refl hR _
  split
  · exact h
  · exact h'

theorem opAnd_shape {a b c d : V} (h : SameShape R a b) (h' : SameShape R c d) : SameShape R (opAnd env a c) (opAnd env b d) := by
  unfold opAnd
  rw [shape_nothing hR h, shape_cvb hR h]
  split
  · exact h
  · exact h'

/-- Values and counts. -/
def RelVal (R : V → V → Prop) (a b : V × Nat) : Prop := SameShape R a.1 b.1 ∧ a.2 = b.2

omit hR in
/-- Operators of two operands, whose values are related. -/
theorem evalExpr_two (oracle : Oracle) {root root' dot dot' : V} {op : Op} {a b : Expr} {f : V → V → Res RErr V} (hop : op ≠ .call)
    (hf : ∀ x y ord, applyOp env ord op [x, y] = f x y) (P : V → V → Prop)
    (h1 : ∀ t, RelRes (fun x y => P x.1 y.1 ∧ x.2 = y.2) (evalExpr env oracle root dot a t) (evalExpr env oracle root' dot' a t)) (Q : V → V → Prop)
    (h2 : ∀ t, RelRes (fun x y => Q x.1 y.1 ∧ x.2 = y.2) (evalExpr env oracle root dot b t) (evalExpr env oracle root' dot' b t))
    (h3 : ∀ x x' y y', P x x' → Q y y' → RelRes (SameShape R) (f x y) (f x' y')) :
    ∀ t, RelRes (RelVal R) (evalExpr env oracle root dot (.inner op [a, b]) t) (evalExpr env oracle root' dot' (.inner op [a, b]) t) := by
  intro t
  simp only [evalExpr, evalKids]
  have hk : RelRes (fun x y : List V × Nat => (∃ u v u' v', x.1 = [u, v] ∧ y.1 = [u', v'] ∧ P u u' ∧ Q v v') ∧ x.2 = y.2)
      (do let (v, t) ← evalExpr env oracle root dot a t
          let (vs, t) ← (do
            let (v, t) ← evalExpr env oracle root dot b t
            let (vs, t) ← (.ok ([], t) : Res RErr (List V × Nat))
            .ok (v :: vs, t))
          .ok (v :: vs, t))
      (do let (v, t) ← evalExpr env oracle root' dot' a t
          let (vs, t) ← (do
            let (v, t) ← evalExpr env oracle root' dot' b t
            let (vs, t) ← (.ok ([], t) : Res RErr (List V × Nat))
            .ok (v :: vs, t))
          .ok (v :: vs, t)) := by
    refine (h1 t).bind ?_
    rintro ⟨u, t1⟩ ⟨u', _⟩ ⟨hu, rfl⟩
    refine RelRes.bind (Q := fun x y : List V × Nat => (∃ v v', x.1 = [v] ∧ y.1 = [v'] ∧ Q v v') ∧ x.2 = y.2) ?_ ?_
    · refine (h2 t1).bind ?_
      rintro ⟨v, t2⟩ ⟨v', _⟩ ⟨hv, rfl⟩
      exact .ok ⟨⟨v, v', rfl, rfl, hv⟩, rfl⟩
    · rintro ⟨_, t2⟩ ⟨_, _⟩ ⟨⟨v, v', rfl, rfl, hv⟩, rfl⟩
      exact .ok ⟨⟨u, v, u', v', rfl, rfl, hu, hv⟩, rfl⟩
  refine hk.bind ?_
  rintro ⟨_, t1⟩ ⟨_, _⟩ ⟨⟨u, v, u', v', rfl, rfl, hu, hv⟩, rfl⟩
  simp only [hf]
  refine (h3 u u' v v' hu hv).bind ?_
  intro x y hxy
  exact .ok ⟨hxy, by simp [hop]⟩

theorem evalExpr_presence (oracle : Oracle) {root root' : V} (hr : SameShape R root root') {dot dot' : V} (hd : SameShape R dot dot')
    {e : Expr} (he : Presence e) : ∀ t, RelRes (RelVal R) (evalExpr env oracle root dot e t) (evalExpr env oracle root' dot' e t) := by
  have two := @evalExpr_two env R oracle root root' dot dot'
  induction he with
  | current => intro t; exact .ok ⟨hd, rfl⟩
  | root => intro t; exact .ok ⟨hr, rfl⟩
  | constant e hc =>
    intro t
    rw [evalExpr_constant env oracle root root' dot dot' e t hc]
    cases evalExpr env oracle root' dot' e t with
    | ok v => exact .ok ⟨sameShape_refl hR _, rfl⟩
    | err e => exact .err e
    | panic m => exact .panic m
    | stuck => exact .stuck
  | dot a s _ ih =>
    refine two (op := .dot) (by decide) (fun _ _ _ => rfl) (SameShape R) ih (fun x y => x = .name s ∧ y = .name s) (fun t => .ok ⟨⟨rfl, rfl⟩, rfl⟩) ?_
    rintro x x' _ _ hx ⟨rfl, rfl⟩
    exact opDot_shape hR hx s
  | index a k _ hc ih =>
    refine two (op := .index) (by decide) (fun _ _ _ => rfl) (SameShape R) ih (fun x y => x = y) (fun t => ?_) ?_
    · rw [evalExpr_constant env oracle root root' dot dot' k t hc]
      cases evalExpr env oracle root' dot' k t with
      | ok v => exact .ok ⟨rfl, rfl⟩
      | err e => exact .err e
      | panic m => exact .panic m
      | stuck => exact .stuck
    · rintro x x' y _ hx rfl
      exact .ok (opIndex_shape hR hx y)
  | not a _ ih =>
    intro t
    simp only [evalExpr, evalKids]
    refine RelRes.bind (Q := fun x y : List V × Nat => (∃ v v', x.1 = [v] ∧ y.1 = [v'] ∧ SameShape R v v') ∧ x.2 = y.2) ?_ ?_
    · refine (ih t).bind ?_
      rintro ⟨v, t2⟩ ⟨v', _⟩ ⟨hv, rfl⟩
      exact .ok ⟨⟨v, v', rfl, rfl, hv⟩, rfl⟩
    · rintro ⟨_, t2⟩ ⟨_, _⟩ ⟨⟨v, v', rfl, rfl, hv⟩, rfl⟩
      have hn := shape_cvb hR hv
      refine .ok ⟨?_, rfl⟩
      show SameShape R (.bool (!cvb env v)) (.bool (!cvb env v'))
      rw [hn]
      exact sameShape_refl hR _
  | and a b _ _ iha ihb =>
    exact two (op := .and) (by decide) (fun _ _ _ => rfl) (SameShape R) iha (SameShape R) ihb fun x x' y y' hx hy => .ok (opAnd_shape hR hx hy)
  | or a b _ _ iha ihb =>
    exact two (op := .or) (by decide) (fun _ _ _ => rfl) (SameShape R) iha (SameShape R) ihb fun x x' y y' hx hy => .ok (opOr_shape hR hx hy)

/-! ### Filters -/

/-- The values of the expression are related, for values that are. -/
def Related (env : Env) (oracle : Oracle) (R : V → V → Prop) (root root' : V) (e : Expr) : Prop :=
  ∀ dot dot', SameShape R dot dot' → ∀ t, RelRes (RelVal R) (evalExpr env oracle root dot e t) (evalExpr env oracle root' dot' e t)

theorem visits_related (oracle : Oracle) {root root' : V} (s : Step) (hs : IsFilter s) {e : Expr}
    (ha : s.args = [.expr e]) (he : Related env oracle R root root' e) {xs ys : List V} (h : Shapes R xs ys) : ∀ {out out' : GoSlice} (t : Nat), RelGo R out out' →
    RelRes (RelSt R) (visits env oracle root s xs out t) (visits env oracle root' s ys out' t) := by
  induction h with
  | nil => intro out out' t ho; exact .ok ⟨ho, rfl⟩
  | cons h _ ih =>
    intro out out' t ho
    simp only [visits, ha, evalVals, evalVal]
    refine RelRes.bind (Q := fun x y : List V × Nat => (∃ v v', x.1 = [v] ∧ y.1 = [v'] ∧ SameShape R v v') ∧ x.2 = y.2) ?_ ?_
    · refine (he _ _ h t).bind ?_
      rintro ⟨v, t2⟩ ⟨v', _⟩ ⟨hv, rfl⟩
      exact .ok ⟨⟨v, v', rfl, rfl, hv⟩, rfl⟩
    · rintro ⟨_, t2⟩ ⟨_, _⟩ ⟨⟨v, v', rfl, rfl, hv⟩, rfl⟩
      refine RelRes.bind (Q := RelGo R) ?_ fun _ _ hx => ih _ hx
      have hv' : ∀ (b : V) (out : GoSlice) (v : V), visit env (oracle t2) s.op b [v] out = .ok (if !isNothing v && cvb env v then out.append b else out) := by
        intro b out v
        rcases hs with hs | hs <;> rw [hs] <;> rfl
      rw [hv', hv', shape_nothing hR hv, shape_cvb hR hv]
      split
      · exact .ok (ho.append h)
      · exact .ok ho

theorem loop_related (oracle : Oracle) {root root' : V} (s : Step) (hs : IsFilter s) {e : Expr}
    (ha : s.args = [.expr e]) (he : Related env oracle R root root' e) {xs ys : List V} (h : Shapes R xs ys) {out out' : GoSlice} (t : Nat) (ho : RelGo R out out') :
    RelRes (RelSt R) (loop env oracle root s xs out t) (loop env oracle root' s ys out' t) := by
  have hemp : ∀ {xs ys : List V}, Shapes R xs ys → xs.isEmpty = ys.isEmpty := by
    intro xs ys h; cases h <;> rfl
  unfold loop
  rw [hemp ho.elems]
  split
  · exact .ok ⟨ho, rfl⟩
  · refine visits_related hR oracle s hs ha he ?_ t (.some .nil)
    unfold visited
    rw [hemp h]
    split
    · exact .cons (sameShape_refl hR _) .nil
    · exact h

omit hR in
theorem stepping_shape (ord : Ord) {xs ys : List V} (h : Shapes R xs ys) : ∀ k, Shapes R (stepping ord k xs) (stepping ord k ys) := by
  induction h with
  | nil => intro k; exact .nil
  | cons h _ ih =>
    intro k
    simp only [stepping]
    exact forall2_append (children_shape ord _ h) (ih _)

theorem evalStep_related (oracle : Oracle) {root root' : V} (s : Step) (hw : s.WF)
    (hc : ∀ e, Val.expr e ∈ s.args → (IsFilter s → Related env oracle R root root' e) ∧ (¬ IsFilter s → Constant e = true)) {out out' : GoSlice} (t : Nat) (ho : RelGo R out out') :
    RelRes (RelSt R) (evalStep env oracle root s out t) (evalStep env oracle root' s out' t) := by
  by_cases hs : IsFilter s
  · obtain ⟨e, ha⟩ : ∃ e, s.args = [.expr e] := by
      have := hw.2
      rcases hs with hs | hs <;> rw [hs] at this <;> exact this
    have he := (hc e (by rw [ha]; simp)).1 hs
    have hl := fun (xs ys : List V) (h : Shapes R xs ys) => loop_related hR oracle s hs ha he h (t + 1) ho
    rcases id hs with hs | hs
    · unfold evalStep; rw [hs]; exact hl _ _ (stepping_shape _ ho.elems 0)
    · unfold evalStep; rw [hs]; exact hl _ _ (walker_shape _ ho.elems 0)
  · exact evalStep_shape env oracle root root' s (fun h => hs (.inl h)) (fun h => hs (.inr h)) (fun e he => (hc e he).2 hs) t ho

theorem evalSteps_related (oracle : Oracle) {root root' : V} : ∀ (q : Path), q.WF →
    (∀ s ∈ q, ∀ e, Val.expr e ∈ s.args → (IsFilter s → Related env oracle R root root' e) ∧ (¬ IsFilter s → Constant e = true)) →
    ∀ {out out' : GoSlice} (t : Nat), RelGo R out out' → RelRes (RelSt R) (evalSteps env oracle root q out t) (evalSteps env oracle root' q out' t)
  | [], _, _, _, _, t, ho => .ok ⟨ho, rfl⟩
  | s :: r, hw, hb, _, _, t, ho => by
    refine (evalStep_related hR oracle s (hw s (by simp)) (hb s (by simp)) t ho).bind ?_
    rintro ⟨a, t1⟩ ⟨b, _⟩ ⟨hx, rfl⟩
    exact evalSteps_related oracle r (fun s hs => hw s (by simp [hs])) (fun s hs => hb s (by simp [hs])) t1 hx

theorem evalPath_related (oracle : Oracle) {root root' : V} (h : SameShape R root root') (q : Path) (hw : q.WF)
    (hb : ∀ s ∈ q, ∀ e, Val.expr e ∈ s.args → (IsFilter s → Related env oracle R root root' e) ∧ (¬ IsFilter s → Constant e = true)) :
    RelRes (RelGo R) (evalPath env oracle root q) (evalPath env oracle root' q) := by
  unfold evalPath
  refine (evalSteps_related hR oracle q hw hb 0 (.some (.cons h .nil))).bind ?_
  rintro ⟨a, t1⟩ ⟨b, _⟩ ⟨hx, rfl⟩
  exact .ok (.some hx.elems)

theorem evalPath_presence (oracle : Oracle) {root root' : V} (h : SameShape R root root') (q : Path) (hw : q.WF) (hb : TestsPresence q) :
    RelRes (RelGo R) (evalPath env oracle root q) (evalPath env oracle root' q) :=
  evalPath_related hR oracle h q hw fun s hs e he => ⟨fun hf _ _ hd => evalExpr_presence hR oracle h hd ((hb s hs e he).1 hf), (hb s hs e he).2⟩

end
end JP
