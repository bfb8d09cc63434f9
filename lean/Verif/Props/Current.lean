import Verif.Proof.Current
import Verif.Proof.Compose
import Verif.Proof.KRfl
import Verif.Props.Ex
/-!
`@` in computed keys: C73.  In full the claim is that in `[(e)]` and `.(e)`, also after `..`, the key is computed anew for
every value that is subscripted, with `@` standing for that value, as in `$..book[(@.length-1)]`.  The code does that
after `..` only; elsewhere the key is computed once, with null for `@`.
-/
namespace JP
open Spec

variable (env : Env) (oracle : Oracle) (p1 p2 : JSONPath) (q : Path)

/-! ### C73 `@` in computed keys -/

/-- The full statement, for steps without `..`. -/
def CurrentRule : Prop :=
  ∀ (oracle : Oracle) (p1 p2 : JSONPath) (q : Path) (e : Expr) (op : Op) (neg : Bool),
    (op = .select ∧ neg = true) ∨ (op = .member ∧ neg = false) → IsCompiled env p1 q → IsCompiled env p2 (q ++ [⟨op, [.expr e]⟩]) →
    ∀ (root : V), root.WF → ∀ (key : V → V) (sel : V → V → List V), Computes env oracle root e key → (∀ v, Picks neg (key v) (sel v)) →
    ∀ vs, Eval env oracle p1 root = some (.ok (some vs)) →
    Eval env oracle p2 root = some (.ok (some (vs.flatMap fun v => sel v v)))

/-- The last element of an array, by its length. -/
def Ex.lengthKey : V → V
  | .arr xs => .int (Int64.ofNat xs.length - 1)
  | .obj kvs => .int (Int64.ofNat kvs.length - 1)
  | .str s => .int (Int64.ofNat (runeCount s) - 1)
  | _ => .nothing

theorem Ex.length_computes (root : V) :
    Computes env oracle root (.inner .sub [.inner .dot [.current, .name (b! "length")], .int 1]) Ex.lengthKey := by
  intro v t
  refine ⟨t, ?_⟩
  cases v <;> rfl

/-- What it selects. -/
def Ex.lengthSel (v : V) : V → List V :=
  match Ex.lengthKey v with
  | .int n => indexOf true n.toInt
  | _ => fun _ => []

theorem Ex.length_picks (v : V) : Picks true (Ex.lengthKey v) (Ex.lengthSel v) := by
  cases v <;> first | exact .int _ | exact .failed _

/-- It is false: `$[(@.length-1)]` selects nothing from an array. -/
theorem C73_current_rule_fails : ¬ CurrentRule env := by
  intro h
  have := h Oracle.id _ _ [] (.inner .sub [.inner .dot [.current, .name (b! "length")], .int 1]) .select true (.inl ⟨rfl, rfl⟩)
    ⟨⟨b! "$", rfl, rfl⟩, by decide⟩ ⟨⟨b! "$[(@.length-1)]", rfl, rfl⟩, by decide⟩ (.arr [.bool true]) (by simp [V.WF, WFs]) Ex.lengthKey
    Ex.lengthSel (Ex.length_computes env _ _) Ex.length_picks [.arr [.bool true]] (run_of_runFuel 1 _ rfl)
  rw [show Eval env Oracle.id _ _ = some (.ok (some [])) from run_of_runFuel 10 _ rfl] at this
  revert this
  simp [Ex.lengthSel, Ex.lengthKey, indexOf]

/-- What happens instead: in `[(e)]` and `.(e)`, anywhere in a path, `@` is the same as `null`. -/
theorem C73_current_is_null (r : Path) (e : Expr) (op : Op) (hop : op = .select ∨ op = .member)
    (h1 : IsCompiled env p1 (q ++ ⟨op, [.expr e]⟩ :: r)) (h2 : IsCompiled env p2 (q ++ ⟨op, [.expr e.withNull]⟩ :: r)) (root : V) :
    Eval env oracle p1 root = Eval env oracle p2 root := by
  rw [h1.eval, h2.eval]
  unfold evalPath
  simp only [evalSteps_append, evalSteps, evalStep_withNull hop]

/-- `$.b[(@||0)].c` and `$.b[(null||0)].c` -/
example := C73_current_is_null Ex.env Oracle.id _ _ [⟨.member, [.name (b! "b")]⟩] [⟨.member, [.name (b! "c")]⟩]
  (.inner .or [.current, .int 0]) .select (.inl rfl) ⟨⟨b! "$.b[(@||0)].c", rfl, rfl⟩, by decide⟩
  ⟨⟨b! "$.b[(null||0)].c", rfl, rfl⟩, by decide⟩ Ex.doc

/-- So an index counted from the length of the array selects nothing, from any document. -/
theorem C73_length_nothing (n : Int64) (op : Op) (hop : op = .select ∨ op = .member) (h1 : IsCompiled env p1 q)
    (h2 : IsCompiled env p2 (q ++ [⟨op, [.expr (.inner .sub [.inner .dot [.current, .name (b! "length")], .int n])]⟩])) (root : V)
    (vs : List V) (he : Eval env oracle p1 root = some (.ok (some vs))) : Eval env oracle p2 root = some (.ok (some [])) := by
  obtain ⟨out, t, rfl, h⟩ := eval_snoc h1 h2 he
  rw [h]
  rcases hop with rfl | rfl <;> rfl

/-- `$.b[(@.length-1)]` -/
example := C73_length_nothing Ex.env Oracle.id _ _ _ 1 .select (.inl rfl) ⟨⟨b! "$.b", rfl, rfl⟩, by decide⟩
  ⟨⟨b! "$.b[(@.length-1)]", rfl, rfl⟩, by decide⟩ Ex.doc _ (run_of_runFuel 10 _ rfl)

/-- Without `@` in the expression the rule holds. -/
theorem C73_constant_partial (e : Expr) (hn : e.withNull = e) (op : Op) (neg : Bool)
    (hop : (op = .select ∧ neg = true) ∨ (op = .member ∧ neg = false)) (h1 : IsCompiled env p1 q) (h2 : IsCompiled env p2 (q ++ [⟨op, [.expr e]⟩]))
    (root : V) (hr : root.WF) (key : V → V) (sel : V → V → List V) (hc : Computes env oracle root e key) (hs : ∀ v, Picks neg (key v) (sel v))
    (vs : List V) (he : Eval env oracle p1 root = some (.ok (some vs))) :
    Eval env oracle p2 root = some (.ok (some (vs.flatMap fun v => sel v v))) := by
  obtain ⟨out, t, rfl, h⟩ := eval_snoc h1 h2 he
  have hsel : (fun v => sel v v) = fun v => sel .null v := by
    funext v
    exact congrFun (Picks.unique (hs v) (constant_key hn hc v ▸ hs .null)) v
  rw [h, hsel, step_computed hop hc (hs .null) out (eval_wf hr h1 he) t]

/-- `$.b[($.length-1)]` -/
example := C73_constant_partial Ex.env Oracle.id _ _ _ (.inner .sub [.inner .dot [.root, .name (b! "length")], .int 1]) rfl .select true
  (.inl ⟨rfl, rfl⟩) ⟨⟨b! "$.b", rfl, rfl⟩, by decide⟩ ⟨⟨b! "$.b[($.length-1)]", rfl, rfl⟩, by decide⟩ Ex.doc Ex.doc_wf (fun _ => Ex.lengthKey Ex.doc)
  (fun _ => Ex.lengthSel Ex.doc) (fun v t => ⟨t, rfl⟩) (fun _ => Ex.length_picks Ex.doc) _ (run_of_runFuel 10 _ rfl)

/-- After `..` the rule holds for every expression: the key is computed with `@` standing for the value visited. -/
theorem C73_descent (hv : oracle.Valid) (e : Expr) (op : Op) (neg : Bool) (hop : (op = .nestSelect ∧ neg = true) ∨ (op = .nestMember ∧ neg = false))
    (h1 : IsCompiled env p1 q) (h2 : IsCompiled env p2 (q ++ [⟨op, [.expr e]⟩])) (root : V) (hr : root.WF) (key : V → V) (sel : V → V → List V)
    (hc : Computes env oracle root e key) (hs : ∀ v, Picks neg (key v) (sel v)) (vs : List V)
    (he : Eval env oracle p1 root = some (.ok (some vs))) :
    ∃ l, PreOrders vs l ∧ Eval env oracle p2 root = some (.ok (some (l.flatMap fun v => sel v v))) := by
  obtain ⟨out, t, rfl, h⟩ := eval_snoc h1 h2 he
  have hw := walker_spec (hv t) out.elems 0
  refine ⟨_, hw, ?_⟩
  have hwf : ∀ v ∈ walker (oracle t) 0 out.elems, v.WF := by
    intro v hv
    obtain ⟨src, hsrc, _, hd⟩ := mem_walker hv
    exact hd.wf (eval_wf hr h1 he src hsrc)
  have hstep : evalStep env oracle root ⟨op, [.expr e]⟩ out t =
      loop env oracle root ⟨op, [.expr e]⟩ (walker (oracle t) 0 out.elems) out (t + 1) := by
    rcases hop with ⟨rfl, -⟩ | ⟨rfl, -⟩ <;> rfl
  rw [h, hstep]
  unfold loop
  by_cases hem : out.elems.isEmpty = true
  · rw [if_pos hem]
    simp only [List.isEmpty_iff] at hem
    simp [stepResult, hem, walker]
  · rw [if_neg hem]
    generalize walker (oracle t) 0 out.elems = l at hwf
    cases l with
    | cons v r =>
      obtain ⟨out', t', ho, hel⟩ := visits_computed hop hc hs (v :: r) hwf (some []) (t + 1)
      simp only [visited, List.isEmpty_cons, Bool.false_eq_true, if_false]
      rw [ho]
      simp only [stepResult, Res.bind_ok, hel]
      rfl
    | nil =>
      obtain ⟨out', t', ho, hel⟩ := visits_computed hop hc hs [.null] (by intro v hv; cases List.mem_singleton.1 hv; trivial) (some []) (t + 1)
      have hnull : sel .null .null = [] := by
        have := hs .null
        generalize key .null = k at this
        generalize sel .null = f at this ⊢
        cases this <;> rfl
      simp only [visited, List.isEmpty_nil, if_true]
      rw [ho]
      simp only [stepResult, Res.bind_ok, hel]
      simp [hnull]
      rfl

/-- `$.b..[(@.length-1)]` -/
example := C73_descent Ex.env Oracle.id _ _ _ Ex.valid (.inner .sub [.inner .dot [.current, .name (b! "length")], .int 1]) .nestSelect true
  (.inl ⟨rfl, rfl⟩) ⟨⟨b! "$.b", rfl, rfl⟩, by decide⟩ ⟨⟨b! "$.b..[(@.length-1)]", rfl, rfl⟩, by decide⟩ Ex.doc Ex.doc_wf Ex.lengthKey Ex.lengthSel
  (Ex.length_computes _ _ _) Ex.length_picks _ (run_of_runFuel 10 _ rfl)

end JP
