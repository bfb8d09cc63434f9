import Verif.Proof.Select
import Verif.Props.Ex
/-!
What each kind of step does: C08-C15.

All statements have the same form: `p1` is a compiled path of tree `q` and `p2` is a compiled path of the
tree `q` followed by one more step; if evaluating `p1` gives the values `vs`, then evaluating `p2` gives
the stated function of `vs` (or a list in the stated relation to `vs`, where map iteration is involved).
The programs have fewer than 2^22 orders (part of `IsCompiled`), as all those of texts of at most 3 MB (C87).
-/
namespace JP
open Spec

variable (env : Env) (oracle : Oracle) (p1 p2 : JSONPath) (q : Path)

/-- The result of a step that appends a list to an empty one. -/
private theorem finish {r : Res RErr GoSlice} {x : Res RErr (GoSlice × Nat)} {l : List V} {t : Nat}
    (h : Appends r (some []) l) (hx : x = (do let o ← r; .ok (o, t))) : some (stepResult x) = some (.ok (some l)) := by
  obtain ⟨o, rfl, he⟩ := h
  subst hx
  simp only [Res.bind_ok, stepResult, he]
  rfl

/-! ### C08 Member selection -/

/-- `.name`, `['name']` and `[name]`. -/
theorem C08_member (name : Bytes) (s : Step)
    (hs : s = ⟨.member, [.name name]⟩ ∨ s = ⟨.select, [.str name]⟩ ∨ s = ⟨.select, [.name name]⟩)
    (h1 : IsCompiled env p1 q) (h2 : IsCompiled env p2 (q ++ [s])) (root : V) (hr : root.WF) (vs : List V)
    (he : Eval env oracle p1 root = some (.ok (some vs))) :
    Eval env oracle p2 root = some (.ok (some (vs.flatMap (memberOf name)))) := by
  obtain ⟨out, t, rfl, h⟩ := eval_snoc h1 h2 he
  rw [h]
  have key : ∀ key neg, (key = V.name name ∨ key = .str name) →
      Appends (applySelection (fun _ el acc => valsByKey env acc el key neg) 0 (some []) out.elems) (some [])
        (out.elems.flatMap (memberOf name)) := fun key neg hk =>
    applySelection_flatMap _ _ _ (fun v hv _ acc => valsByKey_name (eval_wf hr h1 he v hv) hk)
  rcases hs with rfl | rfl | rfl
  · exact finish (key (.name name) false (.inl rfl)) rfl
  · exact finish (key (.str name) true (.inr rfl)) rfl
  · exact finish (key (.name name) true (.inl rfl)) rfl

example := C08_member Ex.env Oracle.id _ _ _ (b! "a") ⟨.member, [.name (b! "a")]⟩ (.inl rfl) ⟨⟨b! "$.*", rfl, rfl⟩, by decide⟩
  ⟨⟨b! "$.*.a", rfl, rfl⟩, by decide⟩ Ex.doc Ex.doc_wf _ (run_of_runFuel 10 _ rfl)

/-- In a document, an object has at most one member of a name. -/
theorem C08_at_most_one (name : Bytes) (kvs : List (Bytes × V)) (hw : (V.obj kvs).WF) :
    (∃ v, (name, v) ∈ kvs ∧ memberOf name (.obj kvs) = [v]) ∨ ((∀ v, (name, v) ∉ kvs) ∧ memberOf name (.obj kvs) = []) := by
  rw [← lookup_eq hw.2.1]
  cases h : lookup kvs name with
  | some v => exact .inl ⟨v, lookup_mem h, rfl⟩
  | none =>
    refine .inr ⟨?_, rfl⟩
    intro v hv
    have hm : memberOf name (.obj kvs) = [] := by rw [← lookup_eq hw.2.1, h]; rfl
    have : v ∈ memberOf name (.obj kvs) := by
      unfold memberOf
      exact List.mem_map.2 ⟨(name, v), List.mem_filter.2 ⟨hv, by simp⟩, rfl⟩
    rw [hm] at this; cases this

example : ∃ p1 p2, IsCompiled Ex.env p1 [⟨.wild, []⟩] ∧
    IsCompiled Ex.env p2 ([⟨.wild, []⟩] ++ [⟨.member, [.name (b! "a")]⟩]) ∧
    Eval Ex.env Oracle.id p1 Ex.doc = some (.ok (some [.arr [.int 1, .int 2, .int 3], .obj [(b! "a", .null)]])) ∧
    Eval Ex.env Oracle.id p2 Ex.doc = some (.ok (some [.null])) :=
  ⟨_, _, ⟨⟨b! "$.*", rfl, rfl⟩, by decide⟩, ⟨⟨b! "$.*.a", rfl, rfl⟩, by decide⟩, run_of_runFuel 10 _ rfl, run_of_runFuel 10 _ rfl⟩

/-! ### C09 Index selection -/

/-- `[n]`: negative `n` counts from the end. -/
theorem C09_index (n : Int64) (h1 : IsCompiled env p1 q) (h2 : IsCompiled env p2 (q ++ [⟨.select, [.int n]⟩])) (root : V)
    (hr : root.WF) (vs : List V) (he : Eval env oracle p1 root = some (.ok (some vs))) :
    Eval env oracle p2 root = some (.ok (some (vs.flatMap (indexOf true n.toInt)))) := by
  obtain ⟨out, t, rfl, h⟩ := eval_snoc h1 h2 he
  rw [h]
  refine finish (r := applySelection (fun _ el acc => valsByKey env acc el (.int n) true) 0 (some []) out.elems) (applySelection_flatMap (f := fun _ el acc => valsByKey env acc el (.int n) true) out.elems 0 (some [])
    (fun v hv _ acc => valsByKey_int (eval_wf hr h1 he v hv))) rfl

example := C09_index Ex.env Oracle.id _ _ _ (-1) ⟨⟨b! "$.a", rfl, rfl⟩, by decide⟩ ⟨⟨b! "$.a[-1]", rfl, rfl⟩, by decide⟩ Ex.doc
  Ex.doc_wf _ (run_of_runFuel 10 _ rfl)

/-- `.n`: only `n` itself. -/
theorem C09_dot_index (n : Int64) (h1 : IsCompiled env p1 q) (h2 : IsCompiled env p2 (q ++ [⟨.member, [.int n]⟩])) (root : V)
    (hr : root.WF) (vs : List V) (he : Eval env oracle p1 root = some (.ok (some vs))) :
    Eval env oracle p2 root = some (.ok (some (vs.flatMap (indexOf false n.toInt)))) := by
  obtain ⟨out, t, rfl, h⟩ := eval_snoc h1 h2 he
  rw [h]
  refine finish (r := applySelection (fun _ el acc => valsByKey env acc el (.int n) false) 0 (some []) out.elems) (applySelection_flatMap (f := fun _ el acc => valsByKey env acc el (.int n) false) out.elems 0 (some [])
    (fun v hv _ acc => valsByKey_int (eval_wf hr h1 he v hv))) rfl

example := C09_dot_index Ex.env Oracle.id _ _ _ 2 ⟨⟨b! "$.a", rfl, rfl⟩, by decide⟩ ⟨⟨b! "$.a.2", rfl, rfl⟩, by decide⟩ Ex.doc
  Ex.doc_wf _ (run_of_runFuel 10 _ rfl)

/-- What that means on an array, case by case. -/
theorem C09_index_cases (xs : List V) (n : Int) :
    (∀ i : Nat, (h : i < xs.length) → n = i → indexOf true n (.arr xs) = [xs[i]] ∧ indexOf false n (.arr xs) = [xs[i]]) ∧
    (∀ i : Nat, (h : i < xs.length) → n = i - xs.length → indexOf true n (.arr xs) = [xs[i]] ∧ indexOf false n (.arr xs) = []) ∧
    (n < -xs.length ∨ xs.length ≤ n → indexOf true n (.arr xs) = [] ∧ indexOf false n (.arr xs) = []) := by
  have h0 : ¬ (false = true ∧ n < 0) := by simp
  refine ⟨?_, ?_, ?_⟩
  · rintro i h rfl
    unfold indexOf; dsimp only
    rw [if_neg (show ¬ (true = true ∧ (i : Int) < 0) by omega), if_neg (show ¬ (false = true ∧ (i : Int) < 0) by simp),
      if_pos ⟨by omega, by omega⟩]
    simp [h]
  · rintro i h rfl
    unfold indexOf; dsimp only
    rw [if_neg (show ¬ (false = true ∧ _) by simp), if_pos (show true = true ∧ _ from ⟨rfl, by omega⟩), if_pos ⟨by omega, by omega⟩,
      if_neg (by omega)]
    have : ((xs.length : Int) + (i - xs.length)).toNat = i := by omega
    rw [this]
    simp [h]
  · intro h
    unfold indexOf; dsimp only
    rw [if_neg (show ¬ (false = true ∧ _) by simp), if_neg (show ¬ (0 ≤ n ∧ n < xs.length) by omega)]
    by_cases hn : n < 0
    · rw [if_pos (show true = true ∧ _ from ⟨rfl, hn⟩), if_neg (by omega)]; exact ⟨rfl, rfl⟩
    · rw [if_neg (show ¬ (true = true ∧ n < 0) by omega), if_neg (by omega)]; exact ⟨rfl, rfl⟩

example : ∃ p1 p2, IsCompiled Ex.env p1 [⟨.member, [.name (b! "a")]⟩] ∧
    IsCompiled Ex.env p2 ([⟨.member, [.name (b! "a")]⟩] ++ [⟨.select, [.int (-1)]⟩]) ∧
    Eval Ex.env Oracle.id p1 Ex.doc = some (.ok (some [.arr [.int 1, .int 2, .int 3]])) ∧
    Eval Ex.env Oracle.id p2 Ex.doc = some (.ok (some [.int 3])) :=
  ⟨_, _, ⟨⟨b! "$.a", rfl, rfl⟩, by decide⟩, ⟨⟨b! "$.a[-1]", rfl, rfl⟩, by decide⟩, run_of_runFuel 10 _ rfl, run_of_runFuel 10 _ rfl⟩

/-! ### C10 Slice selection -/

/-- A step that slices, with literal bounds. -/
def sliceStep (a b c : Option Int64) : Step := ⟨.select, [.slice ⟨a.map .int, b.map .int, c.map .int⟩]⟩

/-- The full statement: on a list of arrays, a slice selects what the rule says. -/
def SliceRule (env : Env) : Prop :=
  ∀ (oracle : Oracle) (p1 p2 : JSONPath) (q : Path) (a b c : Option Int64), IsCompiled env p1 q →
    IsCompiled env p2 (q ++ [sliceStep a b c]) → ∀ (root : V), root.WF → ∀ vs,
    Eval env oracle p1 root = some (.ok (some vs)) → (∀ v ∈ vs, ∃ xs, v = .arr xs) →
    Eval env oracle p2 root = some (.ok (some (vs.flatMap (sliced a b c))))

/-- It is false: adding a large stride to an index overflows. -/
theorem C10_slice_rule_fails : ¬ SliceRule env := by
  intro h
  have := h Oracle.id _ _ [] (some 1) (some 3) (some 9223372036854775807) ⟨⟨b! "$", rfl, rfl⟩, by decide⟩
    ⟨⟨b! "$[1:3:9223372036854775807]", rfl, rfl⟩, by decide⟩ (.arr [.null, .null, .null]) (by simp [V.WF, WFs])
    [.arr [.null, .null, .null]] (run_of_runFuel 1 _ rfl) (by simp)
  rw [show Eval env Oracle.id _ _ = some (.panic "index out of range") from run_of_runFuel 10 _ rfl] at this
  simp at this

/-- The rule holds when adding the stride to the length of the array does not exceed 2^63; missing are the
strides above that. -/
theorem C10_slice_partial (a b c : Option Int64) (h1 : IsCompiled env p1 q) (h2 : IsCompiled env p2 (q ++ [sliceStep a b c]))
    (root : V) (hr : root.WF) (vs : List V) (he : Eval env oracle p1 root = some (.ok (some vs)))
    (hv : ∀ v ∈ vs, ∃ xs, v = .arr xs ∧ (xs.length : Int) + (boundInt c).getD 1 ≤ 2 ^ 63) :
    Eval env oracle p2 root = some (.ok (some (vs.flatMap (sliced a b c)))) := by
  obtain ⟨out, t, rfl, h⟩ := eval_snoc h1 h2 he
  rw [h]
  refine finish (r := applySelection (fun _ el acc => valsByKey env acc el (.slice ⟨a.map .int, b.map .int, c.map .int⟩) true) 0 (some []) out.elems) (applySelection_flatMap
    (f := fun _ el acc => valsByKey env acc el (.slice ⟨a.map .int, b.map .int, c.map .int⟩) true) out.elems 0 (some [])
    (fun v hv' _ acc => valsByKey_slice (eval_wf hr h1 he v hv') (hv v hv'))) rfl

example := C10_slice_partial Ex.env Oracle.id _ _ _ none (some (-4)) (some (-2)) ⟨⟨b! "$.a", rfl, rfl⟩, by decide⟩
  ⟨⟨b! "$.a[:-4:-2]", rfl, rfl⟩, by decide⟩ Ex.doc Ex.doc_wf [.arr [.int 1, .int 2, .int 3]] (run_of_runFuel 10 _ rfl)
  fun v hv => ⟨[.int 1, .int 2, .int 3], by simpa using hv, by decide⟩

/-- Every stride that is not positive, or absent, is within the bound. -/
theorem C10_nonpositive_stride_fits (a b c : Option Int64) (hc : ∀ n, c = some n → n.toInt ≤ 1) (xs : List V) (hw : (V.arr xs).WF) :
    (Sel.slice a b c).Fits (.arr xs) := by
  refine ⟨xs, rfl, ?_⟩
  have : xs.length < 2 ^ 63 := hw.1
  cases c with
  | none => simp [boundInt]; omega
  | some n => have := hc n rfl; simp [boundInt]; omega

example := C10_nonpositive_stride_fits none (some (-4)) (some (-2)) (fun n h => by cases h; decide) [.int 1, .int 2, .int 3]
  (by simp [V.WF, WFs])

private theorem eval_slice_arr (a b c : Option Int64) (h2 : IsCompiled env p2 [sliceStep a b c]) (xs : List V) :
    Eval env oracle p2 (.arr xs) = some (do
      let vs ← sliceVals xs ⟨a.map .int, b.map .int, c.map .int⟩
      .ok (some ((GoSlice.appendAll (some []) vs).elems))) := by
  rw [h2.eval oracle]
  simp only [evalPath, sliceStep, evalSteps, evalStep, evalVals, evalVal, Res.bind_ok, isNothing, Bool.false_eq_true, if_false,
    GoSlice.elems, Option.getD, applySelection, valsByKey]
  cases sliceVals xs ⟨a.map .int, b.map .int, c.map .int⟩ <;> rfl

/-- Exactly which slices of an array panic: those that select an index to which the stride cannot be added. -/
theorem C10_panics_iff (a b c : Option Int64) (h2 : IsCompiled env p2 [sliceStep a b c]) (xs : List V)
    (hr : (V.arr xs).WF) :
    (∃ m, Eval env oracle p2 (.arr xs) = some (.panic m)) ↔
      ∃ j ∈ sliceIndices xs.length (boundInt a) (boundInt b) ((boundInt c).getD 1), 2 ^ 63 ≤ (j : Int) + (boundInt c).getD 1 := by
  obtain ⟨hs1, hs2⟩ := sliceVals_spec xs ⟨a.map .int, b.map .int, c.map .int⟩ hr.1
  simp only [Slice.indices, Slice.strideInt, optInt_map] at hs1 hs2
  rw [eval_slice_arr env oracle p2 a b c h2]
  constructor
  · rintro ⟨m, hm⟩
    apply Decidable.byContradiction
    intro hc
    rw [hs1 (fun j hj => by
      apply Decidable.byContradiction
      intro h; exact hc ⟨j, hj, by omega⟩)] at hm
    simp at hm
  · intro hc
    rw [hs2 hc]
    exact ⟨_, rfl⟩

example := C10_panics_iff Ex.env Oracle.id _ (some 1) none (some 9223372036854775807) ⟨⟨b! "$[1::9223372036854775807]", rfl, rfl⟩, by decide⟩
  [.int 1, .int 2, .int 3] (by simp [V.WF, WFs])

/-- All others select what the rule says. -/
theorem C10_or_panics (a b c : Option Int64) (h2 : IsCompiled env p2 [sliceStep a b c]) (xs : List V) (hr : (V.arr xs).WF) :
    (∃ m, Eval env oracle p2 (.arr xs) = some (.panic m)) ∨
      Eval env oracle p2 (.arr xs) = some (.ok (some (sliced a b c (.arr xs)))) := by
  obtain ⟨hs1, hs2⟩ := sliceVals_spec xs ⟨a.map .int, b.map .int, c.map .int⟩ hr.1
  simp only [Slice.indices, Slice.strideInt, optInt_map] at hs1 hs2
  rw [eval_slice_arr env oracle p2 a b c h2]
  by_cases hc : ∃ j ∈ sliceIndices xs.length (boundInt a) (boundInt b) ((boundInt c).getD 1), 2 ^ 63 ≤ (j : Int) + (boundInt c).getD 1
  · rw [hs2 hc]
    exact .inl ⟨_, rfl⟩
  · rw [hs1 (fun j hj => by
      apply Decidable.byContradiction
      intro h; exact hc ⟨j, hj, by omega⟩)]
    right
    rw [Res.bind_ok, GoSlice.elems_appendAll]
    rfl

example : ∃ p1 p2, IsCompiled Ex.env p1 [⟨.member, [.name (b! "a")]⟩] ∧
    IsCompiled Ex.env p2 ([⟨.member, [.name (b! "a")]⟩] ++ [sliceStep none (some (-4)) (some (-2))]) ∧
    Eval Ex.env Oracle.id p1 Ex.doc = some (.ok (some [.arr [.int 1, .int 2, .int 3]])) ∧
    Eval Ex.env Oracle.id p2 Ex.doc = some (.ok (some [.int 3, .int 1])) :=
  ⟨_, _, ⟨⟨b! "$.a", rfl, rfl⟩, by decide⟩, ⟨⟨b! "$.a[:-4:-2]", rfl, rfl⟩, by decide⟩, run_of_runFuel 10 _ rfl, run_of_runFuel 10 _ rfl⟩

/-! ### C11 Wildcard selection -/

/-- `.*` and `[*]`: the children of each value, one value after the other. -/
theorem C11_wild (hv : oracle.Valid) (h1 : IsCompiled env p1 q) (h2 : IsCompiled env p2 (q ++ [⟨.wild, []⟩])) (root : V)
    (vs : List V) (he : Eval env oracle p1 root = some (.ok (some vs))) :
    ∃ parts, All2 Children vs parts ∧ Eval env oracle p2 root = some (.ok (some parts.flatten)) := by
  obtain ⟨out, t, rfl, h⟩ := eval_snoc h1 h2 he
  obtain ⟨parts, hp, o, ho, hel⟩ := applySelection_parts (R := Children)
    (f := fun k el acc => .ok (acc.appendAll (children (oracle t) [k] el))) out.elems 0 (some [])
    (fun v _ k acc => ⟨_, children_spec (hv t) [k] v, _, rfl, GoSlice.elems_appendAll _ _⟩)
  refine ⟨parts, hp, ?_⟩
  rw [h]
  simp [stepResult, evalStep, GoSlice.elems] at ho hel ⊢
  simp [ho, hel]

example : Children Ex.doc [.obj [(b! "a", .null)], .arr [.int 1, .int 2, .int 3]] := .obj _ _ (List.Perm.swap _ _ _)

/-! ### C12 Union is the ordered concatenation of its elements -/

/-- The full statement. -/
def UnionRule (env : Env) : Prop :=
  ∀ (oracle : Oracle) (p1 p2 : JSONPath) (q : Path) (args : List Val) (sels : List Sel),
    All2 (fun v s => Sel.Is v s) args sels → IsCompiled env p1 q → IsCompiled env p2 (q ++ [⟨.union, args⟩]) →
    ∀ (root : V), root.WF → ∀ vs, Eval env oracle p1 root = some (.ok (some vs)) →
    Eval env oracle p2 root = some (.ok (some (vs.flatMap fun v => sels.flatMap fun s => s.of v)))

/-- It is false: `$['a',0:1]` of the object `{"a": null}` is empty, because the slice discards what was
selected before it. -/
theorem C12_union_rule_fails : ¬ UnionRule env := by
  intro h
  have := h Oracle.id _ _ [] [.str (b! "a"), .slice ⟨some (.int 0), some (.int 1), none⟩] [.name (b! "a"), .slice (some 0) (some 1) none]
    (.cons (.str _) (.cons (.slice (some 0) (some 1) none) .nil)) ⟨⟨b! "$", rfl, rfl⟩, by decide⟩
    ⟨⟨b! "$['a',0:1]", rfl, rfl⟩, by decide⟩ (.obj [(b! "a", .null)]) (by simp [V.WF, WFm])
    [.obj [(b! "a", .null)]] (run_of_runFuel 1 _ rfl)
  rw [show Eval env Oracle.id _ _ = some (.ok (some [])) from run_of_runFuel 10 _ rfl] at this
  simp [Sel.of, memberOf, sliced] at this

/-- The rule holds when every slice in the union meets only arrays (and strides that fit). -/
theorem C12_union_partial (args : List Val) (sels : List Sel) (hs : All2 (fun v s => Sel.Is v s) args sels)
    (h1 : IsCompiled env p1 q) (h2 : IsCompiled env p2 (q ++ [⟨.union, args⟩])) (root : V) (hr : root.WF) (vs : List V)
    (he : Eval env oracle p1 root = some (.ok (some vs))) (hf : ∀ v ∈ vs, ∀ s ∈ sels, s.Fits v) :
    Eval env oracle p2 root = some (.ok (some (vs.flatMap fun v => sels.flatMap fun s => s.of v))) := by
  obtain ⟨out, t, rfl, h⟩ := eval_snoc h1 h2 he
  rw [h]
  refine finish (r := applySelection (fun _ el acc => unionByKeys env acc el (args.map Val.lit)) 0 (some []) out.elems) (applySelection_flatMap
    (f := fun _ el acc => unionByKeys env acc el (args.map Val.lit)) out.elems 0 (some [])
    (fun v hv' _ acc => unionByKeys_sels (eval_wf hr h1 he v hv') hs (hf v hv') acc)) (t := t) (by simp only [evalStep, evalVals_lit hs, Res.bind_ok])

example := C12_union_partial Ex.env Oracle.id _ _ _ [.int 2, .str (b! "x")] [.index 2, .name (b! "x")]
  (.cons (.int _) (.cons (.str _) .nil)) ⟨⟨b! "$.a", rfl, rfl⟩, by decide⟩
  ⟨⟨b! "$.a[2,'x']", rfl, rfl⟩, by decide⟩ Ex.doc Ex.doc_wf [.arr [.int 1, .int 2, .int 3]] (run_of_runFuel 10 _ rfl) (by simp [Sel.Fits])

/-- Each element of a union selects what it selects on its own. -/
theorem C12_single (arg : Val) (sel : Sel) (hs : sel.Is arg) (h1 : IsCompiled env p1 q)
    (h2 : IsCompiled env p2 (q ++ [⟨.select, [arg]⟩])) (root : V) (hr : root.WF) (vs : List V)
    (he : Eval env oracle p1 root = some (.ok (some vs))) (hf : ∀ v ∈ vs, sel.Fits v) :
    Eval env oracle p2 root = some (.ok (some (vs.flatMap sel.of))) := by
  obtain ⟨out, t, rfl, h⟩ := eval_snoc h1 h2 he
  rw [h]
  refine finish (r := applySelection (fun _ el acc => valsByKey env acc el arg.lit true) 0 (some []) out.elems) (applySelection_flatMap
    (f := fun _ el acc => valsByKey env acc el arg.lit true) out.elems 0 (some [])
    (fun v hv' _ acc => valsByKey_sel (eval_wf hr h1 he v hv') hs (hf v hv'))) (t := t) (by simp only [evalStep, evalVals, evalVal_lit hs, lit_not_nothing hs, Res.bind_ok, Bool.false_eq_true, if_false]; rfl)

example : ∃ p2, IsCompiled Ex.env p2 ([⟨.member, [.name (b! "a")]⟩] ++
      [⟨.union, [.int 2, .slice ⟨none, some (.int 2), none⟩, .int 2, .str (b! "x")]⟩]) ∧
    Eval Ex.env Oracle.id p2 Ex.doc = some (.ok (some [.int 3, .int 1, .int 2, .int 3])) :=
  ⟨_, ⟨⟨b! "$.a[2,:2,2,'x']", rfl, rfl⟩, by decide⟩, run_of_runFuel 12 _ rfl⟩

/-! ### C13 Recursive descent visits every descendant exactly once -/

/-- What the step applied at each visited value by `..` selects from it, for literal selectors. -/
inductive Descent : Step → (V → List V) → (V → Prop) → Prop
  | member (name : Bytes) : Descent ⟨.nestMember, [.name name]⟩ (memberOf name) (fun _ => True)
  | index (n : Int64) : Descent ⟨.nestMember, [.int n]⟩ (indexOf false n.toInt) (fun _ => True)
  | select (arg : Val) (sel : Sel) : sel.Is arg → Descent ⟨.nestSelect, [arg]⟩ sel.of sel.Fits
  | union (args : List Val) (sels : List Sel) : All2 (fun v s => Sel.Is v s) args sels →
      Descent ⟨.nestUnion, args⟩ (fun v => sels.flatMap fun s => s.of v) (fun v => ∀ s ∈ sels, s.Fits v)

private theorem union_null {env : Env} {args : List Val} {sels : List Sel} (hsel : All2 (fun v s => Sel.Is v s) args sels) :
    ∀ acc : GoSlice, acc.elems = [] → ∃ o, unionByKeys env acc .null (args.map Val.lit) = .ok o ∧ o.elems = [] := by
  induction hsel with
  | nil => intro acc ha; exact ⟨acc, rfl, ha⟩
  | cons hh _ ih =>
    intro acc ha
    cases hh
    · exact ih acc ha
    · exact ih acc ha
    · exact ih acc ha
    · exact ih none rfl

/-- `..name`, `..n`, `..[sel]`, `..[sel,sel]`: the selector is applied to every array and object at or below
each value, in pre-order.  Missing: slices that meet an object (they discard what was selected before). -/
theorem C13_descent_partial (hv : oracle.Valid) (s : Step) (f : V → List V) (fits : V → Prop) (hs : Descent s f fits)
    (h1 : IsCompiled env p1 q) (h2 : IsCompiled env p2 (q ++ [s])) (root : V) (hr : root.WF) (vs : List V)
    (he : Eval env oracle p1 root = some (.ok (some vs)))
    (hf : ∀ l, PreOrders vs l → ∀ v ∈ l, fits v) :
    ∃ l, PreOrders vs l ∧ Eval env oracle p2 root = some (.ok (some (l.flatMap f))) := by
  obtain ⟨out, t, rfl, h⟩ := eval_snoc h1 h2 he
  have hw := walker_spec (hv t) out.elems 0
  refine ⟨_, hw, ?_⟩
  have hwf : ∀ v ∈ walker (oracle t) 0 out.elems, v.WF := by
    intro v hv
    obtain ⟨src, hsrc, _, hd⟩ := mem_walker hv
    exact hd.wf (eval_wf hr h1 he src hsrc)
  have hf := hf _ hw
  have hstep : evalStep env oracle root s out t = loop env oracle root s (walker (oracle t) 0 out.elems) out (t + 1) := by
    cases hs <;> rfl
  rw [h, hstep]
  unfold loop
  by_cases hem : out.elems.isEmpty = true
  · rw [if_pos hem]
    simp only [List.isEmpty_iff] at hem
    simp [stepResult, hem, walker]
  · rw [if_neg hem]
    generalize walker (oracle t) 0 out.elems = l at hwf hf
    -- what one visit selects
    have hvisit : ∃ sels, All2 (fun v sel => Sel.Is v sel) s.args sels ∧ ∀ v, v.WF → fits v → ∀ ord acc,
        Appends (visit env ord s.op v (s.args.map Val.lit) acc) acc (f v) := by
      cases hs with
      | member name =>
        exact ⟨[.name name], .cons (.name _) .nil, fun v hv _ ord acc => valsByKey_name hv (.inl rfl)⟩
      | index n =>
        exact ⟨[.index n], .cons (.int _) .nil, fun v hv _ ord acc => valsByKey_int hv⟩
      | select arg sel hsel =>
        refine ⟨[sel], .cons hsel .nil, fun v hv hf ord acc => ?_⟩
        simp only [visit, List.map_cons, List.map_nil, lit_not_nothing hsel, Bool.false_eq_true, if_false]
        exact valsByKey_sel hv hsel hf
      | union args sels hsel =>
        refine ⟨sels, hsel, fun v hv hf ord acc => ?_⟩
        exact unionByKeys_sels hv hsel hf acc
    obtain ⟨sels, hargs, hvisit⟩ := hvisit
    cases l with
    | cons v r =>
      obtain ⟨out', t', ho, hel⟩ := visits_flatMap (env := env) (oracle := oracle) (root := root) hargs (v :: r) (some []) (t + 1)
        (fun v hv ord acc => hvisit v (hwf v hv) (hf v hv) ord acc)
      simp only [visited, List.isEmpty_cons, Bool.false_eq_true, if_false]
      rw [ho]
      simp only [stepResult, Res.bind_ok, hel]
      rfl
    | nil =>
      -- nothing to visit: a null is visited, from which nothing is selected
      simp only [visited, List.isEmpty_nil, if_true, visits, evalVals_lit hargs, Res.bind_ok]
      have hnull : ∀ ord, ∃ o, visit env ord s.op .null (s.args.map Val.lit) (some []) = .ok o ∧ o.elems = [] := by
        intro ord
        cases hs with
        | member name => exact ⟨_, rfl, rfl⟩
        | index n => exact ⟨_, rfl, rfl⟩
        | select arg sel hsel => cases hsel <;> exact ⟨_, rfl, rfl⟩
        | union args sels hsel =>
          show ∃ o, unionByKeys env (some []) .null (args.map Val.lit) = .ok o ∧ o.elems = []
          exact union_null hsel _ rfl
      obtain ⟨o, ho, hel⟩ := hnull (oracle (t + 1))
      rw [ho]
      simp [stepResult, hel]

example := C13_descent_partial Ex.env Oracle.id _ _ _ Ex.valid _ _ _ (.member (b! "a")) ⟨⟨b! "$.*", rfl, rfl⟩, by decide⟩
  ⟨⟨b! "$.*..a", rfl, rfl⟩, by decide⟩ Ex.doc Ex.doc_wf _ (run_of_runFuel 10 _ rfl) (fun _ _ _ _ => trivial)

/-- `..*` and `..[*]`: the children of every array and object at or below each value, in pre-order. -/
theorem C13_descent_wild (hv : oracle.Valid) (h1 : IsCompiled env p1 q) (h2 : IsCompiled env p2 (q ++ [⟨.nestWild, []⟩]))
    (root : V) (vs : List V) (he : Eval env oracle p1 root = some (.ok (some vs))) :
    ∃ l parts, PreOrders vs l ∧ All2 Children l parts ∧ Eval env oracle p2 root = some (.ok (some parts.flatten)) := by
  obtain ⟨out, t, rfl, h⟩ := eval_snoc h1 h2 he
  have hw := walker_spec (hv t) out.elems 0
  rw [h]
  have hstep : evalStep env oracle root ⟨.nestWild, []⟩ out t =
    loop env oracle root ⟨.nestWild, []⟩ (walker (oracle t) 0 out.elems) out (t + 1) := rfl
  rw [hstep]
  unfold loop
  by_cases hem : out.elems.isEmpty = true
  · rw [if_pos hem]
    simp only [List.isEmpty_iff] at hem
    refine ⟨[], [], by rw [hem]; exact .nil, .nil, ?_⟩
    simp [stepResult, hem]
  · rw [if_neg hem]
    generalize walker (oracle t) 0 out.elems = l at hw
    cases l with
    | cons v r =>
      obtain ⟨parts, out', t', hp, ho, hel⟩ := visits_wild (env := env) (root := root) hv rfl (v :: r) (some []) (t + 1)
      refine ⟨v :: r, parts, hw, hp, ?_⟩
      simp only [visited, List.isEmpty_cons, Bool.false_eq_true, if_false]
      rw [ho]
      simp only [stepResult, Res.bind_ok, hel]
      rfl
    | nil =>
      refine ⟨[], [], hw, .nil, ?_⟩
      simp [visited, visits, evalVals, visit, children, GoSlice.appendAll, stepResult, GoSlice.elems]

example := C13_descent_wild Ex.env Oracle.id _ _ _ Ex.valid ⟨⟨b! "$.*", rfl, rfl⟩, by decide⟩
  ⟨⟨b! "$.*..*", rfl, rfl⟩, by decide⟩ Ex.doc _ (run_of_runFuel 10 _ rfl)

/-- The full statement for filters: `..[?(e)]` selects the children that `[?(e)]` would select, from every
array and object. -/
def DescentFilterRule (env : Env) : Prop :=
  ∀ (oracle : Oracle) (_ : oracle.Valid) (p1 p2 : JSONPath) (q : Path) (e : Expr), IsCompiled env p1 q →
    IsCompiled env p2 (q ++ [⟨.nestFilter, [.expr e]⟩]) → ∀ (root : V), root.WF → ∀ vs res,
    Eval env oracle p1 root = some (.ok (some vs)) → Eval env oracle p2 root = some (.ok (some res)) →
    ∃ l parts, PreOrders vs l ∧ All2 Children l parts ∧ Keeps (Answer env oracle root e) parts.flatten res

/-- It is false: `$..[?(true)]` of `[true]` is the array itself, and not its element: `..` applies a filter to the
arrays and objects visited, not to their children. -/
theorem C13_descent_filter_rule_fails : ¬ DescentFilterRule env := by
  intro h
  obtain ⟨l, parts, hl, hp, hk⟩ := h Oracle.id (fun _ _ _ => List.Perm.refl _) _ _ [] (.bool true) ⟨⟨b! "$", rfl, rfl⟩, by decide⟩
    ⟨⟨b! "$..[?(true)]", rfl, rfl⟩, by decide⟩ (.arr [.bool true]) (by simp [V.WF, WFs])
    [.arr [.bool true]] [.arr [.bool true]] (run_of_runFuel 1 _ rfl) (run_of_runFuel 10 _ rfl)
  have hl' : l = [.arr [.bool true]] := by
    cases hl with
    | cons _ _ l1 l2 h1 h2 =>
      cases h2
      cases h1 with
      | arr _ l h =>
        cases h with
        | cons _ _ l1 l2 h1 h2 =>
          cases h2
          cases h1
          rfl
      | other _ h => cases h
  subst hl'
  cases hp with
  | cons h1 h2 =>
    cases h2
    cases h1 with
    | arr _ => simp at hk; cases hk; next h => cases h
    | other _ h => cases h

/-- What `..[?(e)]` does: it keeps the arrays and objects, at or below each value, that satisfy `e`.
Missing: a result set without any array or object, for which the filter is applied to a null instead. -/
theorem C13_descent_filter_partial (hv : oracle.Valid) (e : Expr) (h1 : IsCompiled env p1 q)
    (h2 : IsCompiled env p2 (q ++ [⟨.nestFilter, [.expr e]⟩])) (root : V) (vs res : List V)
    (he : Eval env oracle p1 root = some (.ok (some vs))) (he2 : Eval env oracle p2 root = some (.ok (some res)))
    (hst : vs = [] ∨ ∃ v ∈ vs, isStructure v = true) :
    ∃ l, PreOrders vs l ∧ Keeps (Answer env oracle root e) l res := by
  obtain ⟨out, t, rfl, h⟩ := eval_snoc h1 h2 he
  have hw := walker_spec (hv t) out.elems 0
  rw [h] at he2
  have hstep : evalStep env oracle root ⟨.nestFilter, [.expr e]⟩ out t =
    loop env oracle root ⟨.nestFilter, [.expr e]⟩ (walker (oracle t) 0 out.elems) out (t + 1) := rfl
  rw [hstep] at he2
  unfold loop at he2
  refine ⟨_, hw, ?_⟩
  by_cases hem : out.elems.isEmpty = true
  · rw [if_pos hem] at he2
    simp only [List.isEmpty_iff] at hem
    simp [stepResult, hem] at he2
    subst he2
    rw [hem]; exact .nil
  · rw [if_neg hem] at he2
    have hne : walker (oracle t) 0 out.elems ≠ [] := by
      rcases hst with h | ⟨v, hvm, hvs⟩
      · simp [h] at hem
      · clear he he2 h hw hem hstep
        have : ∀ (l : List V) (k : Nat), v ∈ l → walker (oracle t) k l ≠ [] := by
          intro l
          induction l with
          | nil => intro k hm; cases hm
          | cons w r ih =>
            intro k hm
            unfold walker
            rcases List.mem_cons.1 hm with rfl | hm
            · rw [if_pos hvs]
              intro hc
              rw [List.append_eq_nil_iff] at hc
              cases v <;> simp [isStructure] at hvs <;> simp [walkdown] at hc
            · intro hc
              rw [List.append_eq_nil_iff] at hc
              exact ih (k + 1) hm hc.2
        exact this _ _ hvm
    generalize walker (oracle t) 0 out.elems = l at hne he2
    have hvis : visited l = l := by
      unfold visited
      rw [if_neg (by simpa using hne)]
    rw [hvis] at he2
    unfold stepResult at he2
    simp only [Option.some.injEq] at he2
    obtain ⟨⟨o, t'⟩, ho, hr⟩ := bind_eq_ok he2
    simp only [Res.ok.injEq, Option.some.injEq] at hr
    obtain ⟨kept, hk, hel⟩ := visits_filter (.inr rfl) rfl _ _ _ _ _ ho
    rw [hel] at hr
    simp only [GoSlice.elems, Option.getD, List.nil_append] at hr
    subst hr
    exact hk

example := C13_descent_filter_partial Ex.env Oracle.id _ _ _ Ex.valid (.current) ⟨⟨b! "$", rfl, rfl⟩, by decide⟩
  ⟨⟨b! "$..[?(@)]", rfl, rfl⟩, by decide⟩ Ex.doc _ _ (run_of_runFuel 10 _ rfl) (run_of_runFuel 30 _ rfl) (.inr ⟨_, .head _, rfl⟩)

example : PreOrder (.arr [.int 1, .obj [(b! "x", .arr []), (b! "y", .null)]])
    [.arr [.int 1, .obj [(b! "x", .arr []), (b! "y", .null)]], .obj [(b! "x", .arr []), (b! "y", .null)], .arr []] :=
  .arr _ _ (.cons _ _ _ _ (.other _ rfl) (.cons _ _ _ _ (.obj _ [.null, .arr []] [.arr []] (List.Perm.swap _ _ _)
    (.cons _ _ _ _ (.other _ rfl) (.cons _ _ _ _ (.arr _ _ .nil) .nil))) .nil))

example : ∃ p, IsCompiled Ex.env p ([] ++ [⟨.nestMember, [.name (b! "a")]⟩]) ∧
    Eval Ex.env Oracle.id p Ex.doc = some (.ok (some [.arr [.int 1, .int 2, .int 3], .null])) :=
  ⟨_, ⟨⟨b! "$..a", rfl, rfl⟩, by decide⟩, run_of_runFuel 20 _ rfl⟩

/-! ### C14 A filter keeps exactly the children that satisfy it -/

/-- The full statement. -/
def FilterRule (env : Env) : Prop :=
  ∀ (oracle : Oracle) (_ : oracle.Valid) (p1 p2 : JSONPath) (q : Path) (e : Expr), IsCompiled env p1 q →
    IsCompiled env p2 (q ++ [⟨.filter, [.expr e]⟩]) → ∀ (root : V), root.WF → ∀ vs res,
    Eval env oracle p1 root = some (.ok (some vs)) → Eval env oracle p2 root = some (.ok (some res)) →
    ∃ parts, All2 Children vs parts ∧ Keeps (Answer env oracle root e) parts.flatten res

/-- It is false: `$[?(true)]` of the empty array is `[null]`. -/
theorem C14_filter_rule_fails : ¬ FilterRule env := by
  intro h
  obtain ⟨parts, hp, hk⟩ := h Oracle.id (fun _ _ _ => List.Perm.refl _) _ _ [] (.bool true) ⟨⟨b! "$", rfl, rfl⟩, by decide⟩
    ⟨⟨b! "$[?(true)]", rfl, rfl⟩, by decide⟩ (.arr []) (by simp [V.WF, WFs])
    [.arr []] [.null] (run_of_runFuel 1 _ rfl) (run_of_runFuel 10 _ rfl)
  cases hp with
  | cons h1 h2 =>
    cases h2
    cases h1 with
    | arr _ => simp at hk; cases hk
    | other _ h => cases h

/-- The rule holds whenever the result set has some child, or is empty; otherwise the filter is applied to
a null. -/
theorem C14_filter_partial (hv : oracle.Valid) (e : Expr) (h1 : IsCompiled env p1 q)
    (h2 : IsCompiled env p2 (q ++ [⟨.filter, [.expr e]⟩])) (root : V) (vs res : List V)
    (he : Eval env oracle p1 root = some (.ok (some vs))) (he2 : Eval env oracle p2 root = some (.ok (some res))) :
    ∃ parts, All2 Children vs parts ∧
      ((vs = [] ∨ parts.flatten ≠ []) → Keeps (Answer env oracle root e) parts.flatten res) ∧
      (vs ≠ [] → parts.flatten = [] → Keeps (Answer env oracle root e) [.null] res) := by
  obtain ⟨out, t, rfl, h⟩ := eval_snoc h1 h2 he
  obtain ⟨parts, hp, hst⟩ := stepping_spec (hv t) out.elems 0
  rw [h] at he2
  have hstep : evalStep env oracle root ⟨.filter, [.expr e]⟩ out t =
    loop env oracle root ⟨.filter, [.expr e]⟩ (stepping (oracle t) 0 out.elems) out (t + 1) := rfl
  rw [hstep, hst] at he2
  unfold loop at he2
  refine ⟨parts, hp, ?_⟩
  by_cases hem : out.elems.isEmpty = true
  · rw [if_pos hem] at he2
    simp only [List.isEmpty_iff] at hem
    simp [stepResult, hem] at he2
    subst he2
    refine ⟨fun _ => ?_, fun h => absurd hem h⟩
    rw [hem] at hp
    cases hp
    exact .nil
  · rw [if_neg hem] at he2
    unfold stepResult at he2
    simp only [Option.some.injEq] at he2
    obtain ⟨⟨o, t'⟩, ho, hr⟩ := bind_eq_ok he2
    simp only [Res.ok.injEq, Option.some.injEq] at hr
    obtain ⟨kept, hk, hel⟩ := visits_filter (.inl rfl) rfl _ _ _ _ _ ho
    rw [hel] at hr
    simp only [GoSlice.elems, Option.getD, List.nil_append] at hr
    subst hr
    refine ⟨fun hor => ?_, fun _ hnil => ?_⟩
    · have hne : parts.flatten ≠ [] := by
        rcases hor with h | h
        · simp [h] at hem
        · exact h
      unfold visited at hk
      rw [if_neg (by simpa using hne)] at hk
      exact hk
    · rw [hnil] at hk
      exact hk

example := C14_filter_partial Ex.env Oracle.id _ _ _ Ex.valid (.inner .gt [.current, .int 1]) ⟨⟨b! "$.a", rfl, rfl⟩, by decide⟩
  ⟨⟨b! "$.a[?(@>1)]", rfl, rfl⟩, by decide⟩ Ex.doc _ _ (run_of_runFuel 10 _ rfl) (run_of_runFuel 30 _ rfl)

/-- When the value of the expression does not depend on the order of map iteration, the children kept are
given by a plain list filter. -/
theorem C14_keeps_eq_filter {root : V} {e : Expr} {f : V → Bool} {l kept : List V}
    (hf : ∀ c ∈ l, ∀ b, Answer env oracle root e c b → b = f c)
    (hk : Keeps (Answer env oracle root e) l kept) : kept = l.filter f := by
  induction hk with
  | nil => rfl
  | keep h _ ih =>
    have := hf _ (by simp) _ h
    rw [List.filter_cons_of_pos (by rw [← this]), ← ih (fun c hc => hf c (by simp [hc]))]
  | drop h _ ih =>
    have := hf _ (by simp) _ h
    rw [List.filter_cons_of_neg (by rw [← this]; simp), ← ih (fun c hc => hf c (by simp [hc]))]

example : ∃ p, IsCompiled Ex.env p ([⟨.member, [.name (b! "a")]⟩] ++
      [⟨.filter, [.expr (.inner .gt [.current, .int 1])]⟩]) ∧
    Eval Ex.env Oracle.id p Ex.doc = some (.ok (some [.int 2, .int 3])) :=
  ⟨_, ⟨⟨b! "$.a[?(@>1)]", rfl, rfl⟩, by decide⟩, run_of_runFuel 30 _ rfl⟩

end JP
