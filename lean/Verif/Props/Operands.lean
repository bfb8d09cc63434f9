import Verif.Proof.Decimal
import Verif.Props.Values
import Verif.Props.Index
import Verif.Props.Steps
/-!
Selection, indexing, negation and array literals inside expressions: C50 to C53.
-/
namespace JP
open Spec

variable (env : Env)

/-- What an operator that selects at most one value yields: that value, or a failure. -/
def Spec.selected : List V → V
  | v :: _ => v
  | [] => .nothing

/-! ### C50 Members in expressions -/

/-- The full statement: `e.name` is the member of that name, or a failure when there is none. -/
def DotRule : Prop :=
  ∀ (v : V) (name : Bytes), v.WF → Yields2 env .dot v (.name name) (selected (memberOf name v))

theorem selected_lookup {kvs : List (Bytes × V)} (h : (kvs.map Prod.fst).Nodup) (s : Bytes) :
    (lookup kvs s).getD .nothing = selected (memberOf s (.obj kvs)) := by
  have h := lookup_eq h s
  rw [← h]
  cases lookup kvs s <;> rfl

private theorem all2_right {α β : Type} {R : α → β → Prop} {as : List α} {bs : List β} (h : All2 R as bs) {b : β} (hb : b ∈ bs) :
    ∃ a ∈ as, R a b := by
  induction h with
  | nil => cases hb
  | cons h _ ih =>
    rcases List.mem_cons.1 hb with rfl | hb
    · exact ⟨_, by simp, h⟩
    · obtain ⟨a, ha, hr⟩ := ih hb
      exact ⟨a, by simp [ha], hr⟩

private theorem children_wf {v : V} (hw : v.WF) {l : List V} (h : Children v l) {c : V} (hc : c ∈ l) : c.WF := by
  cases h with
  | arr xs => exact wfs_mem hw.2 _ hc
  | obj kvs l hp =>
    obtain ⟨⟨k, x⟩, hm, rfl⟩ := List.mem_map.1 (hp.mem_iff.1 hc)
    exact wfm_mem hw.2.2 _ _ hm
  | other => cases hc

/-- It is false: an object whose only member is `"length": null` has `@.length` equal to 1. -/
theorem C50_dot_rule_fails : ¬ DotRule env := by
  intro h
  have := (yields2_iff rfl).1 (h (.obj [(b! "length", .null)]) (b! "length") (by simp [V.WF, WFm]))
  revert this
  simp [opDot, isNothing, memberOf, selected]

/-- The rule holds for every other name.  (For `length` see C28.) -/
theorem C50_dot_partial (v : V) (name : Bytes) (hn : name ≠ b! "length") (hw : v.WF) :
    Yields2 env .dot v (.name name) (selected (memberOf name v)) := by
  rw [yields2_iff rfl]
  cases v
  case obj kvs =>
    simp only [opDot, isNothing, Bool.or_self, Bool.false_eq_true, if_false, if_neg hn, valByKey, mapKey]
    rw [selected_lookup hw.2.1]
  case err => exact absurd hw (by simp [V.WF])
  all_goals simp [opDot, isNothing, hn, memberOf, selected]

example := C50_dot_partial Ex.env Ex.doc (b! "a") (by decide) Ex.doc_wf

/-- So the filter `[?(@.name)]` keeps exactly the children that have a truthy member of that name. -/
theorem C50_filter_partial (oracle : Oracle) (hv : oracle.Valid) (p1 p2 : JSONPath) (q : Path) (name : Bytes)
    (hn : name ≠ b! "length") (h1 : IsCompiled env p1 q)
    (h2 : IsCompiled env p2 (q ++ [⟨.filter, [.expr (.inner .dot [.current, .name name])]⟩])) (root : V) (hw : root.WF) (vs res : List V)
    (he : Eval env oracle p1 root = some (.ok (some vs))) (he2 : Eval env oracle p2 root = some (.ok (some res))) :
    ∃ parts, All2 Children vs parts ∧ res = parts.flatten.filter fun c => (memberOf name c).any (truthy env) := by
  obtain ⟨parts, hp, hk, hk0⟩ := C14_filter_partial (hv := hv) (e := _) (h1 := h1) (h2 := h2) (root := root) (vs := vs) (res := res)
    (he := he) (he2 := he2)
  have hwf : ∀ c ∈ parts.flatten, c.WF := by
    intro c hc
    obtain ⟨l, hl, hcl⟩ := List.mem_flatten.1 hc
    obtain ⟨v, hv, hch⟩ := all2_right hp hl
    exact children_wf (eval_wf hw h1 he v hv) hch hcl
  have ans : ∀ c : V, c.WF → ∀ b, Answer env oracle root (.inner .dot [.current, .name name]) c b → b = (memberOf name c).any (truthy env) := by
    intro c hc b ⟨v, ⟨t, t', hv⟩, hb⟩
    rw [C50_dot_partial env c name hn hc oracle root c .current (.name name) t t t rfl rfl] at hv
    simp only [Res.ok.injEq, Prod.mk.injEq] at hv
    rw [← hb, ← hv.1]
    cases c <;> try rfl
    case obj kvs =>
      have := lookup_eq hc.2.1 name
      rw [← this]
      cases lookup kvs name <;> simp [selected] <;> rfl
  refine ⟨parts, hp, ?_⟩
  by_cases hor : vs = [] ∨ parts.flatten ≠ []
  · exact C14_keeps_eq_filter env oracle (fun c hc => ans c (hwf c hc)) (hk hor)
  · rw [not_or, not_not] at hor
    have := C14_keeps_eq_filter env oracle (f := fun c => (memberOf name c).any (truthy env))
      (fun c hc => ans c (by simp at hc; subst hc; simp [V.WF])) (hk0 hor.1 hor.2)
    rw [this, hor.2]
    rfl

example : ∃ p, IsCompiled Ex.env p ([⟨.wild, []⟩] ++ [⟨.filter, [.expr (.inner .dot [.current, .name (b! "a")])]⟩]) :=
  ⟨_, ⟨b! "$.*[?(@.a)]", rfl, rfl⟩, by decide⟩

/-! ### C51 Indexing in expressions -/

/-- The full statement: `e[i]` selects as the step `[(i)]` should (C40): a string is a name, an integer an
index counted from the end when negative, and another value is converted to an integer. -/
def IndexRule : Prop :=
  ∀ (v k : V) (sel : V → List V), v.WF → KeyedBy k sel → Yields2 env .index v k (selected (sel v))

/-- It is false: `["x"]["name"]` is the first element. -/
theorem C51_index_rule_fails : ¬ IndexRule env := by
  intro h
  have := (yields2_iff rfl).1 (h (.arr [.null]) (.str (b! "name")) _ (by simp [V.WF, WFs]) (.str _))
  revert this
  rw [show opIndex env (.arr [.null]) (.str (b! "name")) = .null from rfl]
  simp only [memberOf, selected, Res.ok.injEq]
  exact V.noConfusion

private theorem indexVal_eq (xs : List V) (n : Int) : indexVal xs n = selected (indexOf true n (.arr xs)) := by
  have sel : ∀ o : Option V, selected o.toList = o.getD .nothing := by intro o; cases o <;> rfl
  unfold indexVal indexOf
  by_cases h : 0 ≤ n
  · simp only [if_pos h, true_and, show ¬ n < 0 by omega, if_false]
    by_cases h2 : n < xs.length
    · simp only [h2, true_and, h, if_true, sel]
    · rw [if_neg (by omega), List.getElem?_eq_none (by omega)]; rfl
  · simp only [if_neg h, true_and, show n < 0 by omega, if_true]
    by_cases h2 : 0 ≤ n + xs.length
    · rw [if_pos h2, if_pos (by omega), sel, Int.add_comm]
    · rw [if_neg h2, if_neg (by omega)]; rfl

private theorem index_arr {xs : List V} {i : V} {n : Int} (hl : xs.length < 2 ^ 63) (hi : isNothing i = false)
    (hc : (cvi env i).toInt = n) : Yields2 env .index (.arr xs) i (selected (indexOf true n (.arr xs))) := by
  rw [yields2_ok rfl, opIndex_arr hl, hi, hc]
  exact (indexVal_eq _ _).symm

private theorem index_obj {kvs : List (Bytes × V)} {i : V} {s : Bytes} (hn : (kvs.map Prod.fst).Nodup) (hi : isNothing i = false)
    (hc : mapKey env i = s) : Yields2 env .index (.obj kvs) i (selected (memberOf s (.obj kvs))) := by
  rw [yields2_ok rfl, ← selected_lookup hn, ← hc]
  unfold opIndex
  rw [hi]
  rfl

private theorem index_other {v i : V} (ha : ∀ xs, v ≠ .arr xs) (ho : ∀ kvs, v ≠ .obj kvs) : Yields2 env .index v i .nothing := by
  rw [yields2_ok rfl]
  unfold opIndex
  split
  · rfl
  · cases v <;> first | rfl | exact absurd rfl (ha _) | exact absurd rfl (ho _)

/-- The rule holds for integers. -/
theorem C51_int_partial (v k : V) (n : Int64) (hk : k = .int n ∨ k = .gint n) (hw : v.WF) :
    Yields2 env .index v k (selected (indexOf true n.toInt v)) := by
  cases v
  case arr xs => rcases hk with rfl | rfl <;> exact index_arr env hw.1 rfl rfl
  case obj kvs => rcases hk with rfl | rfl <;> exact index_obj env hw.2.1 rfl rfl
  all_goals exact index_other env (by simp) (by simp)

example := C51_int_partial Ex.env (.arr [.int 7, .int 8]) (.int (-1)) (-1) (.inl rfl) (by simp [V.WF, WFs])

/-- The rule holds for strings when the value is not an array. -/
theorem C51_string_partial (v : V) (s : Bytes) (ha : ∀ xs, v ≠ .arr xs) (hw : v.WF) :
    Yields2 env .index v (.str s) (selected (memberOf s v)) := by
  cases v
  case arr xs => exact absurd rfl (ha xs)
  case obj kvs => exact index_obj env hw.2.1 rfl rfl
  all_goals exact index_other env (by simp) (by simp)

example := C51_string_partial Ex.env Ex.doc (b! "a") (by simp [Ex.doc]) Ex.doc_wf

/-- What a string selects from an array: the element at the index that it spells. -/
theorem C51_spelled (xs : List V) (s : Bytes) (n : Int64) (hs : Spells s n.toInt) (hl : xs.length < 2 ^ 63) :
    Yields2 env .index (.arr xs) (.str s) (selected (indexOf true n.toInt (.arr xs))) := by
  refine index_arr env hl rfl ?_
  have h := parseInt_spelled.2 hs
  have hne : s ≠ [] := by rintro rfl; cases h
  simp [cvi, hne, h]

example := C51_spelled Ex.env [.int 7, .int 8] (b! "-1") (-1) (.minus (b! "1") ⟨by decide, by simp [All, Digit]⟩) (by decide)

/-- If it spells no integer of 64 bits, the first element. -/
theorem C51_not_spelled (xs : List V) (s : Bytes) (hs : ∀ n : Int64, ¬ Spells s n.toInt) (hl : xs.length < 2 ^ 63) :
    Yields2 env .index (.arr xs) (.str s) (selected xs) := by
  have h : parseInt s = none := by
    cases h : parseInt s with
    | none => rfl
    | some n => exact absurd (parseInt_spelled.1 h) (hs n)
  have := index_arr env (xs := xs) (i := .str s) (n := 0) hl rfl (by simp [cvi, h])
  convert this using 1
  cases xs <;> simp [indexOf, selected]

example := C51_not_spelled Ex.env [.int 7, .int 8] (b! "x")
  (fun n h => absurd (parseInt_spelled.2 h) (by simp [show parseInt (b! "x") = none by decide])) (by decide)

/-- The rule holds for arrays indexed by other values. -/
theorem C51_converted_partial (xs : List V) (k : V) (n : Int) (hk : ToInt k n) (hl : xs.length < 2 ^ 63) :
    Yields2 env .index (.arr xs) k (selected (indexOf true n (.arr xs))) := by
  cases hk with
  | false => exact index_arr env hl rfl rfl
  | true => exact index_arr env hl rfl rfl
  | null => exact index_arr env hl rfl rfl
  | float n f h3 =>
    refine index_arr env hl rfl ?_
    have hr := i64_range n
    obtain ⟨h1, h2⟩ := F64.not_special h3.finite
    simp only [cvi, f2i, h1, h2, Bool.or_self, Bool.false_eq_true, if_false, F64.trunc_spec h3]
    rw [if_pos ⟨by omega, by omega⟩, Int64.ofInt_toInt]

example := C51_converted_partial Ex.env [.int 7, .int 8] (.bool true) 1 .true (by decide)

/-- It does not hold for objects: there `null`, `true` and `false` are printed, not converted. -/
theorem C51_object_other (kvs : List (Bytes × V)) (k : V) (key : Bytes)
    (hk : (k = .null ∧ key = b! "<nil>") ∨ (k = .bool true ∧ key = b! "true") ∨ (k = .bool false ∧ key = b! "false"))
    (hw : (V.obj kvs).WF) : Yields2 env .index (.obj kvs) k (selected (memberOf key (.obj kvs))) := by
  rcases hk with ⟨rfl, rfl⟩ | ⟨rfl, rfl⟩ | ⟨rfl, rfl⟩ <;> exact index_obj env hw.2.1 rfl rfl

example := C51_object_other Ex.env [(b! "true", .int 7)] (.bool true) (b! "true") (.inr (.inl ⟨rfl, rfl⟩)) (by simp [V.WF, WFm])

/-- Indexing anything that is neither an array nor an object fails; it is never an error. -/
theorem C51_other (v k : V) (ha : ∀ xs, v ≠ .arr xs) (ho : ∀ kvs, v ≠ .obj kvs) : Yields2 env .index v k .nothing :=
  index_other env ha ho

example : Spells (b! "-12") (Int64.toInt (-12)) := .minus (b! "12") ⟨by decide, by simp [All, Digit]⟩
example : ToInt (.bool true) 1 := .true
/-- -1.5 is converted to -1. -/
example : ToInt (.float ⟨0xBFF8000000000000⟩) (Int64.toInt (-1)) := by
  have h : F64.val ⟨0xBFF8000000000000⟩ = -3 / 2 := by
    have hn : F64.neg? ⟨0xBFF8000000000000⟩ = true := by decide +kernel
    have hm : F64.mag ⟨0xBFF8000000000000⟩ = 0x3FF8000000000000 := by decide +kernel
    rw [F64.val, hn, hm, F64.magVal]
    norm_num
  refine .float _ _ ⟨by unfold F64.Finite; decide +kernel, ?_⟩
  rw [h, if_neg (by norm_num), show Int64.toInt (-1) = -1 from rfl]
  symm
  rw [Int.ceil_eq_iff]
  norm_num

/-! ### C52 Unary minus -/

/-- The full statement: the negation of a number (integers wrap); a failure for anything else. -/
def Spec.negated (v : V) : V :=
  match arithmetic? v with
  | some (.int n) => .int (Int64.ofInt (-n))
  | some (.float f) => .float f.fneg
  | none => .nothing

@[inherit_doc Spec.negated] def NegRule : Prop := ∀ v : V, Yields1 env .neg v (negated v)

/-- It is false: `-"x"` is 0. -/
theorem C52_neg_rule_fails : ¬ NegRule env := by
  intro h
  have := (yields1_iff rfl).1 (h (.str (b! "x")))
  revert this
  rw [show opNeg env (.str (b! "x")) = .int (-0) from rfl]
  exact V.noConfusion

/-- It holds for numbers and booleans, and for failures. -/
theorem C52_neg_partial (v : V) (h : (arithmetic? v).isSome ∨ Failed v) : Yields1 env .neg v (negated v) := by
  rw [yields1_iff rfl]
  cases v <;> simp [arithmetic?, Failed] at h
  all_goals simp [negated, arithmetic?, boolToNumber, opNeg, isNothing, cvi]
  case bool b => cases b <;> rfl

example := C52_neg_partial Ex.env (.bool true) (.inl rfl)

/-- What it does with other values: negate the integer that they are converted to, which is the one a string
spells and 0 for anything else. -/
theorem C52_spelled (s : Bytes) (n : Int64) (hs : Spells s n.toInt) : Yields1 env .neg (.str s) (.int (-n)) := by
  rw [yields1_iff rfl]
  have h := parseInt_spelled.2 hs
  have hne : s ≠ [] := by rintro rfl; cases h
  simp [opNeg, isNothing, cvi, hne, h]

example := C52_spelled Ex.env (b! "-12") (-12) (.minus (b! "12") ⟨by decide, by simp [All, Digit]⟩)

@[inherit_doc C52_spelled] theorem C52_zero (v : V)
    (h : v = .null ∨ (∃ xs, v = .arr xs) ∨ (∃ kvs, v = .obj kvs) ∨ ∃ s, v = .str s ∧ ∀ n : Int64, ¬ Spells s n.toInt) :
    Yields1 env .neg v (.int 0) := by
  rw [yields1_iff rfl]
  rcases h with rfl | ⟨xs, rfl⟩ | ⟨kvs, rfl⟩ | ⟨s, rfl, hs⟩
  · simp [opNeg, isNothing, cvi]
  · simp [opNeg, isNothing, cvi]
  · simp [opNeg, isNothing, cvi]
  · have h : parseInt s = none := by
      cases h : parseInt s with
      | none => rfl
      | some n => exact absurd (parseInt_spelled.1 h) (hs n)
    simp [opNeg, isNothing, cvi, h]

/-- The negation of a finite number is exact, and differs in sign even for zero. -/
theorem C52_exact (f : F64) (hf : f.Finite) :
    ∃ g : F64, Yields1 env .neg (.float f) (.float g) ∧ g.Finite ∧ g.val = -f.val ∧ g.neg? = !f.neg? :=
  ⟨f.fneg, (yields1_iff rfl).2 rfl, F64.finite_fneg hf, F64.val_fneg f, F64.neg_fneg f⟩

example := C52_exact Ex.env (F64.ofInt 3) (by unfold F64.Finite; decide +kernel)

/-- Negating twice gives back every number. -/
theorem C52_involution (n : Int64) (f : F64) :
    (∃ r, Yields1 env .neg (.int n) r ∧ Yields1 env .neg r (.int n)) ∧
    ∃ r, Yields1 env .neg (.float f) r ∧ Yields1 env .neg r (.float f) := by
  refine ⟨⟨.int (-n), ?_, ?_⟩, ⟨.float f.fneg, ?_, ?_⟩⟩
  all_goals rw [yields1_iff rfl]
  all_goals simp [opNeg, isNothing, cvi, F64.fneg_fneg]

example : ¬ ∃ n : Int64, Spells (b! "x") n.toInt := by
  rintro ⟨n, h⟩
  exact absurd (parseInt_spelled.2 h) (by simp [show parseInt (b! "x") = none by decide])

/-! ### C53 Array literals -/

/-- `[e1, ..., en]` is the array of the values of its elements, in order.  A failed element does not make the
literal fail: it is an element like any other. -/
theorem C53_array (oracle : Oracle) (root dot : V) (es : List Expr) (vs : List V) (t t1 : Nat)
    (h : Values env oracle root dot es vs t t1) : evalExpr env oracle root dot (.inner .array es) t = .ok (.arr vs, t1) := by
  simp [evalExpr, h.kids, applyOp]

example := C53_array Ex.env Oracle.id .null .null [.int 1, .inner .dot [.current, .name (b! "x")]] [.int 1, .nothing] 0 0
  (.cons rfl (.cons rfl (.nil 0)))

/-- So `[e1, ..., en][i]` is the value of the i-th element. -/
theorem C53_index (oracle : Oracle) (root dot : V) (es : List Expr) (vs : List V) (t t1 : Nat)
    (h : Values env oracle root dot es vs t t1) (i : Nat) (hi : i < vs.length) (hl : vs.length < 2 ^ 63) :
    evalExpr env oracle root dot (.inner .index [.inner .array es, .int (Int64.ofNat i)]) t = .ok (vs[i], t1) := by
  have h1 := C53_array env oracle root dot es vs t t1 h
  have h2 := index_arr env (xs := vs) (i := .int (Int64.ofNat i)) (n := i) hl rfl (by
    rw [show cvi env (.int (Int64.ofNat i)) = Int64.ofNat i from rfl, i64_ofNat (by omega)])
  rw [h2 oracle root dot _ _ t t1 t1 h1 rfl]
  have : indexOf true (i : Int) (.arr vs) = [vs[i]] := by
    unfold indexOf
    simp only [show ¬ ((i : Int) < 0) by omega, and_false, if_false]
    rw [if_pos (by omega)]
    simp [hi]
  rw [this]
  rfl

example := C53_index Ex.env Oracle.id .null .null [.int 1, .inner .dot [.current, .name (b! "x")]] [.int 1, .nothing] 0 0
  (.cons rfl (.cons rfl (.nil 0))) 1 (by decide) (by decide)

/-- Its length is the number of elements, failed or not. -/
theorem C53_length (oracle : Oracle) (root dot : V) (es : List Expr) (vs : List V) (t t1 : Nat)
    (h : Values env oracle root dot es vs t t1) :
    evalExpr env oracle root dot (.inner .dot [.inner .array es, .name (b! "length")]) t = .ok (.int (Int64.ofNat es.length), t1) := by
  have hl : vs.length = es.length := by
    induction h with
    | nil => rfl
    | cons _ _ ih => simp [ih]
  have h2 : Yields2 env .dot (.arr vs) (.name (b! "length")) (.int (Int64.ofNat vs.length)) := by
    rw [yields2_iff rfl]; rfl
  rw [← hl]
  exact h2 oracle root dot _ _ t t1 t1 (C53_array env oracle root dot es vs t t1 h) rfl

example : Values Ex.env Oracle.id .null .null [.int 1, .inner .dot [.current, .name (b! "x")]] [.int 1, .nothing] 0 0 :=
  .cons rfl (.cons rfl (.nil 0))

end JP
