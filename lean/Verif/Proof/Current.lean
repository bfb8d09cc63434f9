import Verif.Spec.Current
import Verif.Proof.Select
/-! `@` in the expressions of `[(e)]` and `.(e)`. -/
namespace JP
open Spec

variable {env : Env} {oracle : Oracle} {root : V}

mutual
theorem evalExpr_withNull (dot : V) : ∀ (e : Expr) (t : Nat),
    evalExpr env oracle root dot e.withNull t = evalExpr env oracle root .null e t
  | .int _, _ | .float _, _ | .str _, _ | .bool _, _ | .null, _ | .name _, _ | .re _, _ | .current, _ | .root, _ => by
    simp only [Expr.withNull, evalExpr]
  | .inner op kids, t => by
    simp only [Expr.withNull, evalExpr]
    rw [evalKids_withNull dot kids t]
theorem evalKids_withNull (dot : V) : ∀ (es : List Expr) (t : Nat),
    evalKids env oracle root dot (Exprs.withNull es) t = evalKids env oracle root .null es t
  | [], _ => by simp only [Exprs.withNull, evalKids]
  | e :: r, t => by
    simp only [Exprs.withNull, evalKids]
    rw [evalExpr_withNull dot e t]
    congr 1
    funext ⟨v, t⟩
    rw [evalKids_withNull dot r t]
end

theorem evalStep_withNull {op : Op} (hop : op = .select ∨ op = .member) (e : Expr) (out : GoSlice) (t : Nat) :
    evalStep env oracle root ⟨op, [.expr e.withNull]⟩ out t = evalStep env oracle root ⟨op, [.expr e]⟩ out t := by
  rcases hop with rfl | rfl <;> simp only [evalStep, evalVals, evalVal, evalExpr_withNull]

/-- What a key adds. -/
theorem picks_adds {neg : Bool} {key : V} {sel : V → List V} (h : Picks neg key sel) {src : V} (hw : src.WF) (acc : GoSlice) :
    (isNothing key = true ∧ sel src = []) ∨ (isNothing key = false ∧ Appends (valsByKey env acc src key neg) acc (sel src)) := by
  cases h with
  | str s => exact .inr ⟨rfl, valsByKey_name hw (.inr rfl)⟩
  | int n => exact .inr ⟨rfl, valsByKey_int hw⟩
  | gint n =>
    refine .inr ⟨rfl, ?_⟩
    have : valsByKey env acc src (.gint n) neg = valsByKey env acc src (.int n) neg := by cases src <;> rfl
    rw [this]; exact valsByKey_int hw
  | failed x => exact .inl ⟨rfl, rfl⟩

/-- Visiting values, with a key computed for each. -/
theorem visits_computed {op : Op} {neg : Bool} (hop : (op = .nestSelect ∧ neg = true) ∨ (op = .nestMember ∧ neg = false)) {e : Expr} {key : V → V}
    (hc : Computes env oracle root e key) {sel : V → V → List V} (hs : ∀ v, Picks neg (key v) (sel v)) :
    ∀ (l : List V) (_ : ∀ v ∈ l, v.WF) (out : GoSlice) (t : Nat), ∃ out' t', visits env oracle root ⟨op, [.expr e]⟩ l out t = .ok (out', t') ∧
      out'.elems = out.elems ++ l.flatMap fun v => sel v v
  | [], _, out, t => ⟨out, t, rfl, by simp⟩
  | v :: r, hl, out, t => by
    obtain ⟨t1, h1⟩ := hc v t
    have hv : ∀ ord, Appends (visit env ord op v [key v] out) out (sel v v) := by
      intro ord
      have h := picks_adds (env := env) (hs v) (hl v (by simp)) out
      rcases hop with ⟨rfl, rfl⟩ | ⟨rfl, rfl⟩ <;> rcases h with ⟨h2, h3⟩ | ⟨h2, h3⟩ <;> simp only [visit, h2, if_true, Bool.false_eq_true, if_false] <;>
        first | exact h3 | exact ⟨out, rfl, by rw [h3]; simp⟩
    obtain ⟨o1, ho, he⟩ := hv (oracle t1)
    have hn : op ≠ .nestWild := by rcases hop with ⟨rfl, -⟩ | ⟨rfl, -⟩ <;> decide
    obtain ⟨o2, t2, ho', he'⟩ := visits_computed hop hc hs r (fun w hw => hl w (by simp [hw])) o1 t1
    refine ⟨o2, t2, ?_, by rw [he', he]; simp⟩
    simp only [visits, evalVals, evalVal, h1, Res.bind_ok, ho]
    rw [if_neg hn]
    exact ho'

theorem Picks.unique {neg : Bool} {k : V} {f g : V → List V} (h : Picks neg k f) (h' : Picks neg k g) : f = g := by
  cases h <;> cases h' <;> rfl

theorem constant_key {e : Expr} (hn : e.withNull = e) {key : V → V} (hc : Computes env oracle root e key) (v : V) : key v = key .null := by
  obtain ⟨t1, h1⟩ := hc v 0
  obtain ⟨t2, h2⟩ := hc .null 0
  rw [← hn, evalExpr_withNull] at h1
  rw [h1] at h2
  exact (Prod.mk.inj (Res.ok.inj h2)).1

/-- Selecting from values, with a key computed once. -/
theorem step_computed {op : Op} {neg : Bool} (hop : (op = .select ∧ neg = true) ∨ (op = .member ∧ neg = false)) {e : Expr} {key : V → V}
    (hc : Computes env oracle root e key) {sel : V → List V} (hs : Picks neg (key .null) sel) (out : GoSlice) (hl : ∀ v ∈ out.elems, v.WF) (t : Nat) :
    stepResult (evalStep env oracle root ⟨op, [.expr e]⟩ out t) = .ok (some (out.elems.flatMap sel)) := by
  obtain ⟨t1, h1⟩ := hc .null t
  by_cases hn : isNothing (key .null) = true
  · have hsel : sel = fun _ => [] := by
      generalize key .null = k at hs hn
      cases hs <;> first | rfl | cases hn
    have : out.elems.flatMap sel = [] := by rw [hsel]; simp
    rw [this]
    rcases hop with ⟨rfl, -⟩ | ⟨rfl, -⟩ <;> simp only [evalStep, evalVals, evalVal, h1, Res.bind_ok, hn, if_true] <;> rfl
  · simp only [Bool.not_eq_true] at hn
    obtain ⟨o, ho, he⟩ := applySelection_flatMap (f := fun _ el acc => valsByKey env acc el (key .null) neg) (g := sel) out.elems 0 (some [])
      (fun el hm _ acc => by
        rcases picks_adds (env := env) hs (hl el hm) acc with ⟨h, -⟩ | ⟨-, h⟩
        · rw [hn] at h; cases h
        · exact h)
    have he' : o.elems = out.elems.flatMap sel := by rw [he]; rfl
    rcases hop with ⟨rfl, rfl⟩ | ⟨rfl, rfl⟩ <;>
    · simp only [evalStep, evalVals, evalVal, h1, Res.bind_ok, hn, Bool.false_eq_true, if_false]
      rw [show (fun (_ : Nat) el acc => valsByKey env acc el (key .null) _) = _ from rfl] at ho
      first
        | (rw [show ((Op.select == Op.select) : Bool) = true from rfl, ho]; simp only [stepResult, Res.bind_ok, he'])
        | (rw [show ((Op.member == Op.select) : Bool) = false from rfl, ho]; simp only [stepResult, Res.bind_ok, he'])

end JP
