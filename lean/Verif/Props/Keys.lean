import Verif.Proof.Keys
import Verif.Proof.KRfl
import Verif.Props.Index
import Verif.Props.Operands
/-!
C63: names computed by expressions.
-/
namespace JP
open Spec

variable (env : Env) (oracle : Oracle) (p1 p2 : JSONPath) (q : Path)

/-- The full statement: on objects, `[(e)]` and `.(e)` select the member named by JavaScript's text of the value
of `e` (ECMA-262 5.1, 11.2.1). -/
def ComputedNameRule : Prop :=
  ∀ (oracle : Oracle) (p1 p2 : JSONPath) (q : Path) (op : Op) (e : Expr) (v : V) (t : Bytes), op = .select ∨ op = .member →
    IsCompiled env p1 q → IsCompiled env p2 (q ++ [⟨op, [.expr e]⟩]) → JsText v t →
    ∀ (root : V), root.WF → IsAlways env oracle root e v → ∀ vs, (∀ el ∈ vs, ∃ kvs, el = .obj kvs) →
    Eval env oracle p1 root = some (.ok (some vs)) → Eval env oracle p2 root = some (.ok (some (vs.flatMap (memberOf t))))

/-- The full statement for `o[i]` in expressions. -/
def ComputedIndexRule : Prop :=
  ∀ (kvs : List (Bytes × V)) (v : V) (t : Bytes), (V.obj kvs).WF → JsText v t →
    Yields2 env .index (.obj kvs) v (selected (memberOf t (.obj kvs)))

/-- It is false: `$[(null)]` does not select the member `null`. -/
theorem C63_step_rule_fails : ¬ ComputedNameRule env := by
  intro h
  have := h Oracle.id _ _ [] .select .null .null _ (.inl rfl) ⟨⟨b! "$", rfl, rfl⟩, by decide⟩
    ⟨⟨b! "$[(null)]", rfl, rfl⟩, by decide⟩ .null (.obj [(b! "null", .bool true)]) (by simp [V.WF, WFm])
    (fun t => ⟨t, rfl⟩) [.obj [(b! "null", .bool true)]] (by simp) (run_of_runFuel 1 _ rfl)
  rw [show Eval env Oracle.id _ _ = some (.ok (some [])) from run_of_runFuel 10 _ rfl] at this
  revert this
  simp [memberOf]

/-- It is false: `{"null": true}[null]` is nothing. -/
theorem C63_index_rule_fails : ¬ ComputedIndexRule env := by
  intro h
  have := (yields2_iff rfl).1 (h [(b! "null", .bool true)] .null _ (by simp [V.WF, WFm]) .null)
  revert this
  rw [show opIndex env (.obj [(b! "null", .bool true)]) .null = .nothing from rfl]
  simp [memberOf, selected, V.nothing]

private theorem step_obj (e : Expr) (v : V) (key : Bytes) (hk : mapKey env v = key) (hn : isNothing v = false) (hs : ∀ s, v ≠ .slice s)
    (op : Op) (hop : op = .select ∨ op = .member) (h1 : IsCompiled env p1 q)
    (h2 : IsCompiled env p2 (q ++ [⟨op, [.expr e]⟩])) (root : V) (hr : root.WF) (hv : IsAlways env oracle root e v) (vs : List V)
    (ho : ∀ el ∈ vs, ∃ kvs, el = .obj kvs) (he : Eval env oracle p1 root = some (.ok (some vs))) :
    Eval env oracle p2 root = some (.ok (some (vs.flatMap (memberOf key)))) := by
  obtain ⟨out, t, rfl, h⟩ := eval_snoc h1 h2 he
  rw [h, step_keyed env oracle hop hn hv (fun el hm' acc => ?_)]
  obtain ⟨kvs, rfl⟩ := ho el hm'
  have hk' : valsByKey env acc (.obj kvs) v (op == .select) = valsByKey env acc (.obj kvs) (.str key) (op == .select) := by
    unfold valsByKey
    split
    · exact absurd rfl (hs _)
    · simp [valByKey, hk, show mapKey env (.str key) = key from rfl]
  rw [hk']
  exact valsByKey_name (eval_wf hr h1 he _ hm') (.inr rfl)

private theorem jsText_kind {v : V} {t : Bytes} (h : JsText v t) : isNothing v = false ∧ ∀ s, v ≠ .slice s := by
  cases h <;> exact ⟨rfl, by simp⟩

private theorem goText_kind {v : V} {t : Bytes} (h : GoText v t) : isNothing v = false ∧ ∀ s, v ≠ .slice s := by
  cases h <;> exact ⟨rfl, by simp⟩

/-- The rule holds for strings, booleans, integers, and floating-point numbers that are integers of at most 53 bits. -/
theorem C63_step_partial (e : Expr) (v : V) (t : Bytes) (hn : NamesAsJs v) (ht : JsText v t) (op : Op)
    (hop : op = .select ∨ op = .member) (h1 : IsCompiled env p1 q) (h2 : IsCompiled env p2 (q ++ [⟨op, [.expr e]⟩])) (root : V)
    (hr : root.WF) (hv : IsAlways env oracle root e v) (vs : List V) (ho : ∀ el ∈ vs, ∃ kvs, el = .obj kvs)
    (he : Eval env oracle p1 root = some (.ok (some vs))) :
    Eval env oracle p2 root = some (.ok (some (vs.flatMap (memberOf t)))) :=
  step_obj env oracle p1 p2 q e v t (namesAsJs env hn ht) (jsText_kind ht).1 (jsText_kind ht).2 op hop h1 h2 root hr hv vs ho he

example := C63_step_partial Ex.env Oracle.id _ _ [] (.bool true) (.bool true) (b! "true") (.bool _) .true .select (.inl rfl)
  ⟨⟨b! "$", rfl, rfl⟩, by decide⟩ ⟨⟨b! "$[(true)]", rfl, rfl⟩, by decide⟩ (.obj [(b! "true", .int 1)]) (by simp [V.WF, WFm]) (fun t => ⟨t, rfl⟩)
  [.obj [(b! "true", .int 1)]] (by simp) (run_of_runFuel 10 _ rfl)

/-- The rule for `o[i]` holds for the same values. -/
theorem C63_index_partial (kvs : List (Bytes × V)) (v : V) (t : Bytes) (hw : (V.obj kvs).WF) (hn : NamesAsJs v) (ht : JsText v t) :
    Yields2 env .index (.obj kvs) v (selected (memberOf t (.obj kvs))) := by
  rw [yields2_ok rfl, ← selected_lookup hw.2.1, ← namesAsJs env hn ht]
  unfold opIndex
  rw [(jsText_kind ht).1]
  rfl

example := C63_index_partial Ex.env [(b! "true", .int 1)] (.bool true) (b! "true") (by simp [V.WF, WFm]) (.bool _) .true

/-- It holds for none of these: null, arrays, objects, infinities, NaN and numbers with a fraction; an object with
just the member that JavaScript would select has not the member that the code looks for. -/
theorem C63_step_never (e : Expr) (v : V) (t : Bytes) (w : V) (hn : NamesOtherwise v) (ht : JsText v t) (op : Op)
    (hop : op = .select ∨ op = .member) (h1 : IsCompiled env p1 q) (h2 : IsCompiled env p2 (q ++ [⟨op, [.expr e]⟩])) (root : V)
    (hr : root.WF) (hv : IsAlways env oracle root e v) (he : Eval env oracle p1 root = some (.ok (some [.obj [(t, w)]]))) :
    Eval env oracle p2 root = some (.ok (some [])) := by
  rw [step_obj env oracle p1 p2 q e v _ rfl (jsText_kind ht).1 (jsText_kind ht).2 op hop h1 h2 root hr hv _ (by simp) he]
  have := namesOtherwise env hn ht
  simp [memberOf, Ne.symm this]

example := C63_step_never Ex.env Oracle.id _ _ [] (.inner .array [.str (b! "a"), .null]) (.arr [.str (b! "a"), .null]) (b! "a,") (.int 7) (.arr _)
  (.arr _ _ (.cons _ _ _ _ (by simp) (.str _) (.null _ _ .nil))) .select (.inl rfl)
  ⟨⟨b! "$", rfl, rfl⟩, by decide⟩ ⟨⟨b! "$[(['a',null])]", rfl, rfl⟩, by decide⟩ (.obj [(b! "a,", .int 7)]) (by simp [V.WF, WFm]) (fun t => ⟨t, rfl⟩)
  (run_of_runFuel 10 _ rfl)

/-- Nor for `o[i]`. -/
theorem C63_index_never (v : V) (t : Bytes) (w : V) (hn : NamesOtherwise v) (ht : JsText v t) :
    Yields2 env .index (.obj [(t, w)]) v .nothing := by
  rw [yields2_ok rfl]
  unfold opIndex
  rw [(jsText_kind ht).1]
  have := namesOtherwise env hn ht
  simp [valByKey, lookup, Ne.symm this]

example := C63_index_never Ex.env (.arr [.str (b! "a"), .null]) (b! "a,") (.int 1) (.arr _)
  (.arr _ _ (.cons _ _ _ _ (by simp) (.str _) (.null _ _ .nil)))

/-- What names are used instead: Go's text of the value, except for floating-point numbers (of which the integral
part is used: C40). -/
theorem C63_step_text (e : Expr) (v : V) (t : Bytes) (hf : ∀ x, v ≠ .float x) (ht : GoText v t) (op : Op)
    (hop : op = .select ∨ op = .member) (h1 : IsCompiled env p1 q) (h2 : IsCompiled env p2 (q ++ [⟨op, [.expr e]⟩])) (root : V)
    (hr : root.WF) (hv : IsAlways env oracle root e v) (vs : List V) (ho : ∀ el ∈ vs, ∃ kvs, el = .obj kvs)
    (he : Eval env oracle p1 root = some (.ok (some vs))) :
    Eval env oracle p2 root = some (.ok (some (vs.flatMap (memberOf t)))) := by
  refine step_obj env oracle p1 p2 q e v t ?_ (goText_kind ht).1 (goText_kind ht).2 op hop h1 h2 root hr hv vs ho he
  rw [← goText_sprint env ht]
  cases ht <;> first | rfl | exact absurd rfl (hf _)

example := C63_step_text Ex.env Oracle.id _ _ [] .null .null (b! "<nil>") (by simp) .null .select (.inl rfl)
  ⟨⟨b! "$", rfl, rfl⟩, by decide⟩ ⟨⟨b! "$[(null)]", rfl, rfl⟩, by decide⟩ (.obj [(b! "<nil>", .int 1)]) (by simp [V.WF, WFm]) (fun t => ⟨t, rfl⟩)
  [.obj [(b! "<nil>", .int 1)]] (by simp) (run_of_runFuel 10 _ rfl)

/-- And in `o[i]`. -/
theorem C63_index_text (kvs : List (Bytes × V)) (v : V) (t : Bytes) (hw : (V.obj kvs).WF) (hf : ∀ x, v ≠ .float x) (ht : GoText v t) :
    Yields2 env .index (.obj kvs) v (selected (memberOf t (.obj kvs))) := by
  have hk : mapKey env v = t := by
    rw [← goText_sprint env ht]
    cases ht <;> first | rfl | exact absurd rfl (hf _)
  rw [yields2_ok rfl, ← selected_lookup hw.2.1, ← hk]
  unfold opIndex
  rw [(goText_kind ht).1]
  rfl

example := C63_index_text Ex.env [(b! "[a <nil>]", .int 1)] (.arr [.str (b! "a"), .null]) (b! "[a <nil>]") (by simp [V.WF, WFm]) (by simp)
  (.arr _ _ (.cons _ _ _ _ (.str _) (.cons _ _ _ _ .null .nil)))

/-- Every value of a document has exactly one such text. -/
theorem C63_text_unique (v : V) (hw : v.WF) : ∃ t, GoText v t ∧ ∀ t', GoText v t' → t' = t :=
  ⟨_, sprint_goText Ex.env hw, fun _ h => (goText_sprint Ex.env h).symm⟩

example := C63_text_unique Ex.doc Ex.doc_wf

/-- Of the remaining floating-point numbers, which are integers of more than 53 bits, the name is JavaScript's exactly if
that is the exact value. -/
theorem C63_whole (x : F64) (n : Int64) (hf : x.Finite) (hx : x.val = (n.toInt : ℚ)) (t : Bytes) (w : V) :
    (IntegerText n.toInt t → Yields2 env .index (.obj [(t, w)]) (.float x) w) ∧
    (¬ IntegerText n.toInt t → Yields2 env .index (.obj [(t, w)]) (.float x) .nothing) := by
  have hk : mapKey env (.float x) = intToBytes n.toInt := by
    have hr := i64_range n
    obtain ⟨h1, h2⟩ := F64.not_special hf
    have h3 : x.IntegralPart n.toInt := ⟨hf, by rw [hx]; simp⟩
    simp only [mapKey, f2i, h1, h2, Bool.or_self, Bool.false_eq_true, if_false, F64.trunc_spec h3]
    rw [if_pos ⟨by omega, by omega⟩, Int64.ofInt_toInt]
  rw [yields2_ok rfl, yields2_ok rfl]
  simp only [opIndex, isNothing, valByKey, hk, lookup]
  refine ⟨fun h => ?_, fun h => ?_⟩
  · rw [h.unique (integerText_intToBytes _)]
    simp
  · have hne : ¬ t = intToBytes n.toInt := fun h' => h (by rw [h']; exact integerText_intToBytes _)
    simp [hne]

/-- `2^60` and its exact digits. -/
example : ∃ n : Int64, F64.Finite ⟨0x43B0000000000000⟩ ∧ F64.val ⟨0x43B0000000000000⟩ = (n.toInt : ℚ) ∧ IntegerText n.toInt (b! "1152921504606846976") := by
  refine ⟨1152921504606846976, by unfold F64.Finite; decide +kernel, ?_, ?_⟩
  · unfold F64.val F64.magVal
    rw [show F64.neg? ⟨0x43B0000000000000⟩ = false by decide, show F64.mag ⟨0x43B0000000000000⟩ = 4877398396442247168 by decide]
    norm_num
    decide +kernel
  · exact integerText_intToBytes (1152921504606846976 : Int64).toInt

/-- This may fail: `2^60` is `1152921504606847000` in JavaScript,
but the name used is `1152921504606846976`. -/
theorem C63_large (w : V) : JsText (.float ⟨0x43B0000000000000⟩) (b! "1152921504606847000") ∧
    Yields2 env .index (.obj [(b! "1152921504606847000", w)]) (.float ⟨0x43B0000000000000⟩) .nothing ∧
    Yields2 env .index (.obj [(b! "1152921504606846976", w)]) (.float ⟨0x43B0000000000000⟩) w := by
  have hf : F64.Finite ⟨0x43B0000000000000⟩ := by unfold F64.Finite; decide +kernel
  refine ⟨.float _ _ (.positive _ 1152921504606847 3 (b! "1152921504606847") _ hf (by decide) (by decide) ?_ ?_ ?_), ?_, ?_⟩
  · have := shortest_spec hf (by decide)
    rwa [show shortest ⟨0x43B0000000000000⟩ = (1152921504606847, 3) by decide +kernel] at this
  · have := numeral_natToBytes 1152921504606847
    rwa [show natToBytes 1152921504606847 = b! "1152921504606847" by decide +kernel] at this
  · exact .whole (b! "000") (by decide) (by decide) (zeros_eq.2 (by decide))
  · rw [yields2_ok rfl]
    unfold opIndex
    simp only [isNothing, valByKey, mapKey]
    rw [show f2i env ⟨0x43B0000000000000⟩ = 1152921504606846976 by
      unfold f2i
      rw [if_neg (by decide), if_pos (by decide +kernel)]
      decide +kernel]
    rfl
  · rw [yields2_ok rfl]
    unfold opIndex
    simp only [isNothing, valByKey, mapKey]
    rw [show f2i env ⟨0x43B0000000000000⟩ = 1152921504606846976 by
      unfold f2i
      rw [if_neg (by decide), if_pos (by decide +kernel)]
      decide +kernel]
    rfl

example : NamesAsJs (.float ⟨0x4008000000000000⟩) ∧ JsText (.float ⟨0x4008000000000000⟩) (b! "3") := by
  have hf : F64.Finite ⟨0x4008000000000000⟩ := by unfold F64.Finite; decide +kernel
  have hv : F64.val ⟨0x4008000000000000⟩ = (3 : ℤ) := by
    unfold F64.val F64.magVal
    rw [show F64.neg? ⟨0x4008000000000000⟩ = false by decide, show F64.mag ⟨0x4008000000000000⟩ = 4613937818241073152 by decide]
    norm_num
  refine ⟨.whole _ 3 hf hv (by norm_num), .float _ _ (.positive _ 3 0 (b! "3") _ hf (by decide) (by decide) ?_ ?_ ?_)⟩
  · have := shortest_spec hf (by decide)
    rwa [show shortest ⟨0x4008000000000000⟩ = (3, 0) by decide +kernel] at this
  · exact numeral_natToBytes 3
  · exact .whole [] (by decide) (by decide) (zeros_eq.2 rfl)

example : NamesOtherwise (.arr [.str (b! "a"), .null]) ∧ JsText (.arr [.str (b! "a"), .null]) (b! "a,") ∧
    GoText (.arr [.str (b! "a"), .null]) (b! "[a <nil>]") :=
  ⟨.arr _, .arr _ _ (.cons _ _ _ _ (by simp) (.str _) (.null _ _ .nil)), .arr _ _ (.cons _ _ _ _ (.str _) (.cons _ _ _ _ .null .nil))⟩

example : GoText (.obj [(b! "b", .bool true), (b! "a", .null)]) (b! "map[a:<nil> b:true]") :=
  .obj _ [(b! "a", .null), (b! "b", .bool true)] _ (.swap _ _ _) (by simp; decide) (.cons _ _ _ _ .null (.cons _ _ _ _ .true .nil))

example : ∃ p1 p2, IsCompiled Ex.env p1 [] ∧ IsCompiled Ex.env p2 ([] ++ [⟨.select, [.expr (.bool true)]⟩]) ∧
    IsAlways Ex.env Oracle.id (.obj [(b! "true", .int 1)]) (.bool true) (.bool true) ∧
    Eval Ex.env Oracle.id p1 (.obj [(b! "true", .int 1)]) = some (.ok (some [.obj [(b! "true", .int 1)]])) ∧
    Eval Ex.env Oracle.id p2 (.obj [(b! "true", .int 1)]) = some (.ok (some [.int 1])) :=
  ⟨_, _, ⟨⟨b! "$", rfl, rfl⟩, by decide⟩, ⟨⟨b! "$[(true)]", rfl, rfl⟩, by decide⟩, fun t => ⟨t, rfl⟩, run_of_runFuel 10 _ rfl,
    run_of_runFuel 10 _ rfl⟩

end JP
