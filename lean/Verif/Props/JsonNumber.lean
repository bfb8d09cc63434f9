import Verif.Proof.JsonNumber
import Verif.Proof.Program
import Verif.Props.Ex
import Verif.Proof.KRfl
/-!
Numbers kept as texts: C89.

The programs have fewer than 2^22 orders (part of `IsCompiled`), as all those of texts of at most 3 MB (C87).
-/
namespace JP
open Spec F64

variable (env : Env) (oracle : Oracle)

/-! ### C89 Documents decoded with UseNumber -/

/-- Full statement: it makes no difference to a path whether numbers were decoded as texts or as floats. -/
def UseNumberRule : Prop := ∀ (p : JSONPath) (q : Path), IsCompiled env p q → ∀ (d d' : V), SameShape AsFloat d d' →
  ∀ vs : List V, Eval env oracle p d' = some (.ok (some vs)) →
    ∃ vs', Eval env oracle p d = some (.ok (some vs')) ∧ List.Forall₂ (SameShape AsFloat) vs' vs

private theorem one_finite : F64.one.Finite := by unfold F64.Finite; decide +kernel

private theorem one_rounds : Rounds ((decimal (b! "1") : ℚ) * 10 ^ (0 : ℤ)) F64.one := by
  have h := rounds_ofInt 1
  rw [ofInt_one] at h
  have h1 : decimal (b! "1") = 1 := by decide
  rw [h1]
  simpa using h

private theorem one_digits : Digits (b! "1") := by
  refine ⟨by decide, ?_⟩
  intro c hc
  simp only [List.mem_cons, List.not_mem_nil, or_false] at hc
  subst hc
  simp [Digit]

private theorem one_text : DecimalText (b! "1") false ((decimal (b! "1") : ℚ) * 10 ^ (0 : ℤ)) 0 :=
  .unsigned _ _ _ (.whole (b! "1") [] 0 one_digits .none)

private theorem one_asFloat : AsFloat (.num (b! "1")) (.float F64.one) := .number _ _ _ _ _ one_text (.inl (by decide)) one_finite one_rounds

/-- It is false: `$[?(@==1)]` selects the element of `[1]` only if it is a float. -/
theorem C89_same_fails : ¬ UseNumberRule Ex.env Oracle.id := by
  intro hr
  obtain ⟨p, hp, h1, h2⟩ : ∃ p, IsCompiled Ex.env p [⟨.filter, [.expr (.inner .eq [.current, .int 1])]⟩] ∧
      Eval Ex.env Oracle.id p (.arr [.float F64.one]) = some (.ok (some [.float F64.one])) ∧
      Eval Ex.env Oracle.id p (.arr [.num (b! "1")]) = some (.ok (some [])) :=
    ⟨_, ⟨⟨b! "$[?(@==1)]", rfl, rfl⟩, by decide⟩, run_of_runFuel 60 _ (by krfl), run_of_runFuel 60 _ (by krfl)⟩
  obtain ⟨vs', h3, h4⟩ := hr p _ hp (.arr [.num (b! "1")]) (.arr [.float F64.one]) (.arr (.cons (.scalar trivial trivial one_asFloat) .nil)) _ h1
  rw [h2] at h3
  cases h3
  cases h4

/-- It holds for the paths whose filters only test for presence (C88), and so for all paths without filters.  Not
covered: filters that compare or compute, where it is false. -/
theorem C89_same_partial (p : JSONPath) (q : Path) (h : IsCompiled env p q) (hq : TestsPresence q) (d d' : V) (hd : SameShape AsFloat d d')
    (vs : List V) (he : Eval env oracle p d' = some (.ok (some vs))) :
    ∃ vs', Eval env oracle p d = some (.ok (some vs')) ∧ List.Forall₂ (SameShape AsFloat) vs' vs := by
  rw [h.eval] at he ⊢
  simp only [Option.some.injEq] at he
  have hr := evalPath_presence (env := env) keepsTruth_asFloat oracle hd q h.wf hq
  rw [he] at hr
  generalize evalPath env oracle d q = y at hr
  cases hr with
  | ok hr => cases hr with | some hr => exact ⟨_, rfl, hr⟩

/-- `$[?(@[0])]` on `[[1]]`. -/
example := C89_same_partial Ex.env Oracle.id _ [⟨.filter, [.expr (.inner .index [.current, .int 0])]⟩] ⟨⟨b! "$[?(@[0])]", rfl, rfl⟩, by decide⟩
  (by
    intro s hs e he
    simp only [List.mem_cons, List.not_mem_nil, or_false] at hs
    subst hs
    simp only [List.mem_cons, List.not_mem_nil, or_false, Val.expr.injEq] at he
    subst he
    exact ⟨fun _ => .index _ _ .current rfl, fun h => (h (.inl rfl)).elim⟩)
  (.arr [.arr [.num (b! "1")]]) (.arr [.arr [.float F64.one]])
  (.arr (.cons (.arr (.cons (.scalar trivial trivial one_asFloat) .nil)) .nil)) [.arr [.float F64.one]] (run_of_runFuel 60 _ (by krfl))

/-! What happens instead. -/

/-- A number kept as a text is true in a filter when the float is. -/
theorem C89_truth (s : Bytes) (neg : Bool) (q : ℚ) (e : ℤ) (x : F64) (h : DecimalText s neg q e) (hs : Sane s e) (hf : x.Finite)
    (hx : Rounds q x) : truthy env (.num s) = truthy env (.float x) := by
  unfold truthy
  rw [num_cvb h hs hf hx]
  rfl

example := C89_truth Ex.env (b! "1") _ _ _ _ one_text (.inl (by decide)) one_finite one_rounds

/-- It is not equal to anything, not even to itself. -/
theorem C89_equal (s : Bytes) (v : V) : Yields2 env .eq (.num s) v (.bool false) ∧ Yields2 env .eq v (.num s) (.bool false) ∧
    Yields2 env .ne (.num s) v (.bool true) ∧ Yields2 env .ne v (.num s) (.bool true) := by
  refine ⟨(yields2_ok rfl).2 ?_, (yields2_ok rfl).2 ?_, (yields2_ok rfl).2 ?_, (yields2_ok rfl).2 ?_⟩
  · rw [(num_eq s v).1]
  · rw [(num_eq s v).2]
  · rw [(num_eq s v).1]; rfl
  · rw [(num_eq s v).2]; rfl

/-- But an array of just this element is equal to the text, as a string. -/
theorem C89_array (s t : Bytes) : Yields2 env .eq (.arr [.num s]) (.str t) (.bool true) ↔ s = t := by
  rw [yields2_ok rfl]
  simp only [V.bool.injEq]
  rw [eq_comm]
  unfold eqVal
  simp [typeOf, eqMixed, eqArrayS, cvs]

/-- It is in no array. -/
theorem C89_in (s : Bytes) (xs : List V) : Yields2 env .in_ (.num s) (.arr xs) (.bool false) ∧ Yields2 env .nin (.num s) (.arr xs) (.bool true) ∧
    YieldsCall env (b! "contains") [.arr xs, .num s] (.bool false) := by
  refine ⟨(yields2_iff rfl).2 ?_, (yields2_iff rfl).2 ?_, yieldsCall_of fun ord => ?_⟩
  · simp [opIn, isNothing, num_search]
  · simp only [opIn, isNothing, num_search]; rfl
  · show Res.ok (V.bool (containsElem env (.num s) xs)) = _
    rw [num_contains]

/-- It is neither less nor greater than any value. -/
theorem C89_order (s : Bytes) (v : V) (hv : Defined v) (op : Op) (ho : op ∈ [Op.lt, .le, .ge, .gt]) :
    Yields2 env op (.num s) v (.bool false) ∧ Yields2 env op v (.num s) (.bool false) := by
  have hn : isNothing v = false := by
    cases v <;> first | rfl | exact absurd rfl (hv _)
  have h0 : isNothing (.num s) = false := rfl
  have h1 : ∀ f g k, relation env (.num s) v f g k = .bool false := by intros; simp [relation, hn, h0, isSimple]
  have h2 : ∀ f g k, relation env v (.num s) f g k = .bool false := by intros; simp [relation, hn, h0, isSimple]
  simp only [List.mem_cons, List.not_mem_nil, or_false] at ho
  rcases ho with rfl | rfl | rfl | rfl <;> exact ⟨(yields2_ok rfl).2 (h1 _ _ _).symm, (yields2_ok rfl).2 (h2 _ _ _).symm⟩

example := C89_order Ex.env (b! "1") (.int 2) (by intro e h; cases h) .lt (by decide)

/-- Nothing can be computed with it by an operator with two operands. -/
theorem C89_arith (s : Bytes) (v : V) (op : Op) (ho : op ∈ [Op.add, .sub, .mul, .div, .mod]) :
    Yields2 env op (.num s) v .nothing ∧ Yields2 env op v (.num s) .nothing := by
  have h1 : ∀ f g, arith env (.num s) v f g = .nothing := by intros; simp [arith, isArith]
  have h2 : ∀ f g, arith env v (.num s) f g = .nothing := by intros; simp [arith, isArith]
  have h3 : ∀ f g, divide env (.num s) v f g = .nothing := by intros; simp [divide, isArith]
  have h4 : ∀ f g, divide env v (.num s) f g = .nothing := by intros; simp [divide, isArith]
  simp only [List.mem_cons, List.not_mem_nil, or_false] at ho
  rcases ho with rfl | rfl | rfl | rfl | rfl
  · exact ⟨(yields2_ok rfl).2 (h1 _ _).symm, (yields2_ok rfl).2 (h2 _ _).symm⟩
  · exact ⟨(yields2_ok rfl).2 (h1 _ _).symm, (yields2_ok rfl).2 (h2 _ _).symm⟩
  · exact ⟨(yields2_ok rfl).2 (h1 _ _).symm, (yields2_ok rfl).2 (h2 _ _).symm⟩
  · exact ⟨(yields2_ok rfl).2 (h3 _ _).symm, (yields2_ok rfl).2 (h4 _ _).symm⟩
  · exact ⟨(yields2_ok rfl).2 (h3 _ _).symm, (yields2_ok rfl).2 (h4 _ _).symm⟩

example := C89_arith Ex.env (b! "1") (.int 2) .add (by decide)

/-- The negation of an integer is an integer. -/
theorem C89_neg (s : Bytes) (n : Int64) (h : Spells s n.toInt) : Yields1 env .neg (.num s) (.int (-n)) := by
  refine (yields1_iff rfl).2 ?_
  simp [opNeg, isNothing, cvi, parseInt_spelled.2 h]

/-- The negation of any other number is 0. -/
theorem C89_neg_other (s : Bytes) (h : ∀ n : Int64, ¬ Spells s n.toInt) : Yields1 env .neg (.num s) (.int 0) := by
  refine (yields1_iff rfl).2 ?_
  have : parseInt s = none := by
    cases hp : parseInt s with
    | none => rfl
    | some n => exact absurd (parseInt_spelled.1 hp) (h n)
  simp [opNeg, isNothing, cvi, this]

private theorem fraction_text : ∀ n : Int64, ¬ Spells (b! "1.5") n.toInt := by
  intro n h
  have h1 := parseInt_spelled.2 h
  have h2 : parseInt (b! "1.5") = none := by decide
  rw [h1] at h2
  cases h2

example := C89_neg Ex.env (b! "7") 7 (parseInt_spelled.1 (by decide))
example := C89_neg_other Ex.env (b! "1.5") fraction_text

/-- As an index into an array an integer is that integer. -/
theorem C89_index (s : Bytes) (n : Int64) (h : Spells s n.toInt) (xs : List V) (r : V) :
    Yields2 env .index (.arr xs) (.num s) r ↔ Yields2 env .index (.arr xs) (.int n) r := by
  have hc : cvi env (.num s) = cvi env (.int n) := by simp [cvi, parseInt_spelled.2 h]
  rw [yields2_ok rfl, yields2_ok rfl]
  unfold opIndex
  simp only [hc]
  rfl

example := C89_index Ex.env (b! "7") 7 (parseInt_spelled.1 (by decide)) [.null] .nothing

/-- Any other number is 0 there. -/
theorem C89_index_other (s : Bytes) (h : ∀ n : Int64, ¬ Spells s n.toInt) (xs : List V) (r : V) :
    Yields2 env .index (.arr xs) (.num s) r ↔ Yields2 env .index (.arr xs) (.int 0) r := by
  have : parseInt s = none := by
    cases hp : parseInt s with
    | none => rfl
    | some n => exact absurd (parseInt_spelled.1 hp) (h n)
  have hc : cvi env (.num s) = cvi env (.int 0) := by simp [cvi, this]
  rw [yields2_ok rfl, yields2_ok rfl]
  unfold opIndex
  simp only [hc]
  rfl

example := C89_index_other Ex.env (b! "1.5") fraction_text [.null] .null

/-- In an object it is the name that it spells. -/
theorem C89_member (s : Bytes) (ms : List (Bytes × V)) (r : V) :
    Yields2 env .index (.obj ms) (.num s) r ↔ Yields2 env .index (.obj ms) (.str s) r := by
  rw [yields2_ok rfl, yields2_ok rfl]
  rfl

/-- The functions on numbers fail on it, with the value of type error. -/
theorem C89_functions (s : Bytes) (f : Bytes) (hf : f ∈ [b! "abs", b! "ceil", b! "floor", b! "to_number"]) :
    YieldsCall env f [.num s] (.err .type) := by
  simp only [List.mem_cons, List.not_mem_nil, or_false] at hf
  rcases hf with rfl | rfl | rfl | rfl <;> exact yieldsCall_of fun ord => rfl

example := C89_functions Ex.env (b! "1") (b! "abs") (by decide)

/-- So do those on arrays of numbers, if there is one among the elements. -/
theorem C89_aggregates (s : Bytes) (xs : List V) (hs : V.num s ∈ xs) (f : Bytes) (hf : f ∈ [b! "avg", b! "max", b! "min", b! "prod", b! "sum"]) :
    YieldsCall env f [.arr xs] (.err .type) := by
  have he : xs.isEmpty = false := by cases xs <;> simp at hs ⊢
  simp only [List.mem_cons, List.not_mem_nil, or_false] at hf
  rcases hf with rfl | rfl | rfl | rfl | rfl <;> refine yieldsCall_of fun ord => ?_
  · exact congrArg Res.ok (avgLoop_num _ _ _ ⟨s, hs⟩)
  · exact congrArg Res.ok (minMaxArray_num _ _ ⟨s, hs⟩)
  · exact congrArg Res.ok (minMaxArray_num _ _ ⟨s, hs⟩)
  · show Res.ok (if xs.isEmpty then _ else _) = _
    rw [he]
    exact congrArg Res.ok (arithArrayOp_num _ ⟨s, hs⟩)
  · show Res.ok (if xs.isEmpty then _ else _) = _
    rw [he]
    exact congrArg Res.ok (arithArrayOp_num _ ⟨s, hs⟩)

example := C89_aggregates Ex.env (b! "1") [.int 2, .num (b! "1")] (by simp) (b! "sum") (by decide)

end JP
