import Verif.Proof.JsText
import Verif.Proof.Round
import Verif.Proof.Select
import Verif.Props.Ex
/-!
Steps whose argument is an expression: C39 (bounds of slices) and C40 (indices).
-/
namespace JP
open Spec

variable (env : Env) (oracle : Oracle) (p1 p2 : JSONPath) (q : Path)

/-! ### C40 Index expressions are converted to keys -/

/-- `e` has the value `v`, with null for `@`, under every order of map iteration. -/
def Spec.IsAlways (env : Env) (oracle : Oracle) (root : V) (e : Expr) (v : V) : Prop :=
  ∀ t, ∃ t', evalExpr env oracle root .null e t = .ok (v, t')

/-- The integer that a value other than a string or integer is converted to. -/
inductive Spec.ToInt : V → Int → Prop
  | false : ToInt (.bool false) 0
  | true : ToInt (.bool true) 1
  | null : ToInt .null 0
  | float (n : Int64) (f : F64) : f.IntegralPart n.toInt → ToInt (.float f) n.toInt

/-- What the step `[(e)]` should select when `e` has the value `v`. -/
inductive Spec.KeyedBy : V → (V → List V) → Prop
  | str (s : Bytes) : KeyedBy (.str s) (memberOf s)
  | int (n : Int64) : KeyedBy (.int n) (indexOf true n.toInt)
  | gint (n : Int64) : KeyedBy (.gint n) (indexOf true n.toInt)
  | other (v : V) (n : Int) : ToInt v n → KeyedBy v (indexOf true n)

/-- The full statement. -/
def IndexExprRule : Prop :=
  ∀ (oracle : Oracle) (p1 p2 : JSONPath) (q : Path) (e : Expr) (v : V) (sel : V → List V), IsCompiled env p1 q →
    IsCompiled env p2 (q ++ [⟨.select, [.expr e]⟩]) → KeyedBy v sel → ∀ (root : V), root.WF → IsAlways env oracle root e v → ∀ vs,
    Eval env oracle p1 root = some (.ok (some vs)) → Eval env oracle p2 root = some (.ok (some (vs.flatMap sel)))

/-- It is false: `$[(true)]` on an array of two elements selects nothing. -/
theorem C40_index_rule_fails : ¬ IndexExprRule env := by
  intro h
  have := h Oracle.id _ _ [] (.bool true) (.bool true) _ ⟨⟨b! "$", rfl, rfl⟩, by decide⟩
    ⟨⟨b! "$[(true)]", rfl, rfl⟩, by decide⟩ (.other _ 1 .true) (.arr [.null, .null]) (by simp [V.WF, WFs])
    (fun t => ⟨t, rfl⟩) [.arr [.null, .null]] (run_of_runFuel 1 _ rfl)
  rw [show Eval env Oracle.id _ _ = some (.ok (some [])) from run_of_runFuel 10 _ rfl] at this
  revert this
  simp [indexOf]

theorem step_keyed {op : Op} (hop : op = .select ∨ op = .member) {root : V} {e : Expr} {v : V} (hn : isNothing v = false)
    (hv : IsAlways env oracle root e v) {sel : V → List V} {out : GoSlice}
    (hk : ∀ el ∈ out.elems, ∀ acc, Appends (valsByKey env acc el v (op == .select)) acc (sel el)) (t : Nat) :
    stepResult (evalStep env oracle root ⟨op, [.expr e]⟩ out t) = .ok (some (out.elems.flatMap sel)) := by
  obtain ⟨t', ht⟩ := hv t
  obtain ⟨o, ho, he⟩ := applySelection_flatMap (f := fun _ el acc => valsByKey env acc el v (op == .select)) out.elems 0 (some [])
    (fun el hm _ acc => hk el hm acc)
  have he' : o.elems = out.elems.flatMap sel := by rw [he]; rfl
  rcases hop with rfl | rfl <;>
  · simp only [evalStep, evalVals, evalVal, ht, Res.bind_ok, hn, Bool.false_eq_true, if_false]
    rw [ho]
    simp only [stepResult, Res.bind_ok, he']

/-- The rule holds for strings, which stand for names. -/
theorem C40_string_partial (e : Expr) (s : Bytes) (op : Op) (hop : op = .select ∨ op = .member) (h1 : IsCompiled env p1 q)
    (h2 : IsCompiled env p2 (q ++ [⟨op, [.expr e]⟩])) (root : V) (hr : root.WF) (hv : IsAlways env oracle root e (.str s)) (vs : List V)
    (he : Eval env oracle p1 root = some (.ok (some vs))) :
    Eval env oracle p2 root = some (.ok (some (vs.flatMap (memberOf s)))) := by
  obtain ⟨out, t, rfl, h⟩ := eval_snoc h1 h2 he
  rw [h, step_keyed env oracle hop rfl hv (fun el hm acc => valsByKey_name (eval_wf hr h1 he el hm) (.inr rfl))]

example := C40_string_partial Ex.env Oracle.id _ _ _ (.inner .or [.str (b! "a"), .null]) (b! "a") .select (.inl rfl) ⟨⟨b! "$.b", rfl, rfl⟩, by decide⟩
  ⟨⟨b! "$.b[('a'||null)]", rfl, rfl⟩, by decide⟩ Ex.doc Ex.doc_wf (fun t => ⟨t, rfl⟩) _ (run_of_runFuel 10 _ rfl)

/-- The rule holds for integers; negative ones count from the end in `[(e)]` but not in `.(e)`. -/
theorem C40_int_partial (e : Expr) (n : Int64) (v : V) (hvn : v = .int n ∨ v = .gint n) (op : Op)
    (hop : op = .select ∨ op = .member) (h1 : IsCompiled env p1 q)
    (h2 : IsCompiled env p2 (q ++ [⟨op, [.expr e]⟩])) (root : V) (hr : root.WF) (hv : IsAlways env oracle root e v) (vs : List V)
    (he : Eval env oracle p1 root = some (.ok (some vs))) :
    Eval env oracle p2 root = some (.ok (some (vs.flatMap (indexOf (op == .select) n.toInt)))) := by
  obtain ⟨out, t, rfl, h⟩ := eval_snoc h1 h2 he
  have hn : isNothing v = false := by rcases hvn with rfl | rfl <;> rfl
  have hk : ∀ acc el, valsByKey env acc el v (op == .select) = valsByKey env acc el (.int n) (op == .select) := by
    intro acc el
    rcases hvn with rfl | rfl
    · rfl
    · cases el <;> rfl
  rw [h, step_keyed env oracle hop hn hv (fun el hm acc => by rw [hk]; exact valsByKey_int (eval_wf hr h1 he el hm))]

example := C40_int_partial Ex.env Oracle.id _ _ _ (.inner .sub [.int 1, .int 2]) (-1) _ (.inl rfl) .select (.inl rfl) ⟨⟨b! "$.a", rfl, rfl⟩, by decide⟩
  ⟨⟨b! "$.a[(1-2)]", rfl, rfl⟩, by decide⟩ Ex.doc Ex.doc_wf (fun t => ⟨t, rfl⟩) _ (run_of_runFuel 10 _ rfl)

/-- The name of the member that an integer selects from an object (`indexOf`) is its decimal text. -/
theorem C40_name_text (n : Int) : IntegerText n (intToBytes n) ∧ ∀ t, IntegerText n t → t = intToBytes n :=
  ⟨integerText_intToBytes n, fun _ h => h.unique (integerText_intToBytes n)⟩

/-- What happens with the other values: they select nothing from arrays, and from objects the member named
by their text; a floating-point number gives the digits of its integral part. -/
theorem C40_other (e : Expr) (v : V) (key : Bytes)
    (hk : (v = .null ∧ key = b! "<nil>") ∨ (v = .bool true ∧ key = b! "true") ∨ (v = .bool false ∧ key = b! "false") ∨
      ∃ f : F64, ∃ n : Int64, v = .float f ∧ f.IntegralPart n.toInt ∧ IntegerText n.toInt key)
    (op : Op) (hop : op = .select ∨ op = .member) (h1 : IsCompiled env p1 q)
    (h2 : IsCompiled env p2 (q ++ [⟨op, [.expr e]⟩])) (root : V) (hr : root.WF) (hv : IsAlways env oracle root e v) (vs : List V)
    (he : Eval env oracle p1 root = some (.ok (some vs))) :
    Eval env oracle p2 root = some (.ok (some (vs.flatMap (memberOf key)))) := by
  obtain ⟨out, t, rfl, h⟩ := eval_snoc h1 h2 he
  have hm : mapKey env v = key ∧ isNothing v = false ∧ isInt v = false ∧ ∀ s, v ≠ .slice s := by
    rcases hk with ⟨rfl, rfl⟩ | ⟨rfl, rfl⟩ | ⟨rfl, rfl⟩ | ⟨f, n, rfl, h3, h4⟩
    · exact ⟨rfl, rfl, rfl, by simp⟩
    · exact ⟨rfl, rfl, rfl, by simp⟩
    · exact ⟨rfl, rfl, rfl, by simp⟩
    · cases h4.unique (integerText_intToBytes _)
      refine ⟨?_, rfl, rfl, by simp⟩
      have hr := i64_range n
      obtain ⟨h1, h2⟩ := F64.not_special h3.finite
      simp only [mapKey, f2i, h1, h2, Bool.or_self, Bool.false_eq_true, if_false, F64.trunc_spec h3]
      rw [if_pos ⟨by omega, by omega⟩, Int64.ofInt_toInt]
  have hk' : ∀ acc el, valsByKey env acc el v (op == .select) = valsByKey env acc el (.str key) (op == .select) := by
    intro acc el
    unfold valsByKey
    split
    · exact absurd rfl (hm.2.2.2 _)
    · cases el <;> simp [hm.2.2.1, show isInt (.str key) = false from rfl, valByKey, hm.1, show mapKey env (.str key) = key from rfl]
  rw [h, step_keyed env oracle hop hm.2.1 hv (fun el hm' acc => by rw [hk']; exact valsByKey_name (eval_wf hr h1 he el hm') (.inr rfl))]

example := C40_other Ex.env Oracle.id _ _ _ (.inner .lt [.int 1, .int 2]) (.bool true) (b! "true") (.inr (.inl ⟨rfl, rfl⟩)) .select (.inl rfl)
  ⟨⟨b! "$.b", rfl, rfl⟩, by decide⟩ ⟨⟨b! "$.b[(1<2)]", rfl, rfl⟩, by decide⟩ Ex.doc Ex.doc_wf (fun t => ⟨t, rfl⟩) _ (run_of_runFuel 10 _ rfl)

/-- A failed evaluation selects nothing. -/
theorem C40_failed (e : Expr) (x : Err) (op : Op) (hop : op = .select ∨ op = .member) (h1 : IsCompiled env p1 q)
    (h2 : IsCompiled env p2 (q ++ [⟨op, [.expr e]⟩])) (root : V) (hv : IsAlways env oracle root e (.err x)) (vs : List V)
    (he : Eval env oracle p1 root = some (.ok (some vs))) : Eval env oracle p2 root = some (.ok (some [])) := by
  obtain ⟨out, t, rfl, h⟩ := eval_snoc h1 h2 he
  obtain ⟨t', ht⟩ := hv t
  rw [h]
  rcases hop with rfl | rfl <;>
  · simp only [evalStep, evalVals, evalVal, ht, Res.bind_ok, isNothing, if_true]
    rfl

example : ∃ p1 p2, IsCompiled Ex.env p1 [⟨.member, [.name (b! "a")]⟩] ∧
    IsCompiled Ex.env p2 ([⟨.member, [.name (b! "a")]⟩] ++ [⟨.select, [.expr (.inner .sub [.int 1, .int 2])]⟩]) ∧
    IsAlways Ex.env Oracle.id Ex.doc (.inner .sub [.int 1, .int 2]) (.int (-1)) ∧
    Eval Ex.env Oracle.id p1 Ex.doc = some (.ok (some [.arr [.int 1, .int 2, .int 3]])) ∧
    Eval Ex.env Oracle.id p2 Ex.doc = some (.ok (some [.int 3])) :=
  ⟨_, _, ⟨⟨b! "$.a", rfl, rfl⟩, by decide⟩, ⟨⟨b! "$.a[(1-2)]", rfl, rfl⟩, by decide⟩, fun t => ⟨t, rfl⟩, run_of_runFuel 10 _ rfl,
    run_of_runFuel 10 _ rfl⟩

/-! ### C39 Slice bounds may be expressions -/

/-- The value of a bound: a literal, or an expression that has an integer for its value. -/
inductive Spec.BoundIs (env : Env) (oracle : Oracle) (root : V) : Option Bound → Option Int64 → Prop
  | none : BoundIs env oracle root none none
  | int (n : Int64) : BoundIs env oracle root (some (.int n)) (some n)
  | expr (e : Expr) (n : Int64) : IsAlways env oracle root e (.int n) → BoundIs env oracle root (some (.expr e)) (some n)

/-- The full statement: on a list of arrays (and away from the overflow of C10), a slice whose bounds have
the given values selects what the rule for those values says. -/
def BoundExprRule : Prop :=
  ∀ (oracle : Oracle) (p1 p2 : JSONPath) (q : Path) (s : Slice) (a b c : Option Int64), IsCompiled env p1 q →
    IsCompiled env p2 (q ++ [⟨.select, [.slice s]⟩]) → ∀ (root : V), root.WF →
    BoundIs env oracle root s.start a → BoundIs env oracle root s.stop b → BoundIs env oracle root s.stride c → ∀ vs,
    Eval env oracle p1 root = some (.ok (some vs)) → (∀ v ∈ vs, (Sel.slice a b c).Fits v) →
    Eval env oracle p2 root = some (.ok (some (vs.flatMap (sliced a b c))))

/-- It is false: `$[(1):]` selects all elements. -/
theorem C39_bound_rule_fails : ¬ BoundExprRule env := by
  intro h
  have := h Oracle.id _ _ [] ⟨some (.expr (.int 1)), none, none⟩ (some 1) none none ⟨⟨b! "$", rfl, rfl⟩, by decide⟩
    ⟨⟨b! "$[(1):]", rfl, rfl⟩, by decide⟩ (.arr [.bool true, .bool false]) (by simp [V.WF, WFs])
    (.expr _ _ fun t => ⟨t, rfl⟩) .none .none [.arr [.bool true, .bool false]] (run_of_runFuel 1 _ rfl)
    (by intro v hv; simp at hv; subst hv; exact ⟨_, rfl, by decide⟩)
  rw [show Eval env Oracle.id _ _ = some (.ok (some [.bool true, .bool false])) from run_of_runFuel 10 _ rfl] at this
  revert this
  simp only [List.flatMap_cons, List.flatMap_nil, List.append_nil, sliced]
  rw [show sliceOf [V.bool true, V.bool false] (boundInt (some 1)) (boundInt none) ((boundInt none).getD 1) = [.bool false] from rfl]
  simp

/-- A bound with its expression replaced by 0. -/
def Spec.zeroed : Option Bound → Option Bound
  | some (.expr _) => some (.int 0)
  | b => b

/-- What happens instead: every expression counts as 0, whatever its value (it is not evaluated). -/
theorem C39_expressions_are_zero (s : Slice) (p3 : JSONPath) (h2 : IsCompiled env p2 (q ++ [⟨.select, [.slice s]⟩]))
    (h3 : IsCompiled env p3 (q ++ [⟨.select, [.slice ⟨zeroed s.start, zeroed s.stop, zeroed s.stride⟩]⟩])) (root : V) :
    Eval env oracle p2 root = Eval env oracle p3 root := by
  have key : ∀ l, sliceEval s l = sliceEval ⟨zeroed s.start, zeroed s.stop, zeroed s.stride⟩ l := by
    intro l
    obtain ⟨a, b, c⟩ := s
    rcases a with _ | _ | _ <;> rcases b with _ | _ | _ <;> rcases c with _ | _ | _ <;> rfl
  have hv : ∀ acc src neg, valsByKey env acc src (.slice s) neg =
      valsByKey env acc src (.slice ⟨zeroed s.start, zeroed s.stop, zeroed s.stride⟩) neg := by
    intro acc src neg
    cases src <;> simp [valsByKey, sliceVals, key]
  rw [h2.eval, h3.eval]
  unfold evalPath
  rw [evalSteps_append, evalSteps_append]
  congr 2
  simp only [evalSteps, evalStep, evalVals, evalVal, Res.bind_ok, hv]
  rfl

example := C39_expressions_are_zero Ex.env Oracle.id _ [⟨.member, [.name (b! "a")]⟩] ⟨some (.expr (.inner .add [.int 1, .int 1])), some (.int 2), none⟩ _
  ⟨⟨b! "$.a[(1+1):2]", rfl, rfl⟩, by decide⟩ ⟨⟨b! "$.a[0:2]", rfl, rfl⟩, by decide⟩ Ex.doc

/-- So the rule holds for literal bounds, and for expressions that have the value 0; missing are all others. -/
theorem C39_bound_partial (s : Slice) (a b c : Option Int64) (h1 : IsCompiled env p1 q)
    (h2 : IsCompiled env p2 (q ++ [⟨.select, [.slice s]⟩])) (root : V) (hr : root.WF)
    (ha : zeroed s.start = a.map .int) (hb : zeroed s.stop = b.map .int) (hc : zeroed s.stride = c.map .int) (vs : List V)
    (he : Eval env oracle p1 root = some (.ok (some vs))) (hf : ∀ v ∈ vs, (Sel.slice a b c).Fits v) :
    Eval env oracle p2 root = some (.ok (some (vs.flatMap (sliced a b c)))) := by
  obtain ⟨out, t, rfl, h⟩ := eval_snoc h1 h2 he
  have key : ∀ l, sliceEval s l = sliceEval ⟨zeroed s.start, zeroed s.stop, zeroed s.stride⟩ l := by
    intro l
    obtain ⟨a, b, c⟩ := s
    rcases a with _ | _ | _ <;> rcases b with _ | _ | _ <;> rcases c with _ | _ | _ <;> rfl
  have hv : ∀ acc src neg, valsByKey env acc src (.slice s) neg = valsByKey env acc src (.slice ⟨a.map .int, b.map .int, c.map .int⟩) neg := by
    intro acc src neg
    rw [← ha, ← hb, ← hc]
    cases src <;> simp [valsByKey, sliceVals, key]
  obtain ⟨o, ho, heo⟩ := applySelection_flatMap (f := fun _ el acc => valsByKey env acc el (.slice s) true) out.elems 0 (some [])
    (g := sliced a b c) (fun el hm _ acc => by rw [hv]; exact valsByKey_slice (eval_wf hr h1 he el hm) (hf el hm))
  rw [h]
  have he' : o.elems = out.elems.flatMap (sliced a b c) := by rw [heo]; rfl
  show some (stepResult (applySelection (fun _ el acc => valsByKey env acc el (.slice s) true) 0 (some []) out.elems >>= fun o => .ok (o, t))) = _
  rw [ho]
  simp only [stepResult, Res.bind_ok, he']

example : ∃ p2, IsCompiled Ex.env p2 ([⟨.member, [.name (b! "a")]⟩] ++
    [⟨.select, [.slice ⟨some (.expr (.inner .sub [.int 1, .int 1])), some (.int 2), none⟩]⟩]) ∧
    Eval Ex.env Oracle.id p2 Ex.doc = some (.ok (some [.int 1, .int 2])) :=
  ⟨_, ⟨⟨b! "$.a[(1-1):2]", rfl, rfl⟩, by decide⟩, run_of_runFuel 10 _ rfl⟩

end JP
