import Verif.Spec.Ops
import Verif.Proof.Slice
/-! The operators of the model, seen through `Yields1`, `Yields2` and `YieldsCall`. -/
namespace JP
open JP.Spec

variable {env : Env}

/-- The operators with one operand. -/
theorem yields1_iff {op : Op} {a r s : V} (h : unop env op a = some s) : Yields1 env op a r ↔ r = s := by
  have hop : op ≠ .array ∧ op ≠ .call := by constructor <;> (rintro rfl; simp [unop] at h)
  have key : ∀ (oracle : Oracle) (root dot : V) (e : Expr) (t t1 : Nat),
      evalExpr env oracle root dot e t = .ok (a, t1) → evalExpr env oracle root dot (.inner op [e]) t = .ok (s, t1) := by
    intro oracle root dot e t t1 he
    simp only [evalExpr, evalKids, he, Res.bind_ok]
    rw [show applyOp env (oracle t1) op [a] = .ok s by
      unfold applyOp
      split
      · exact absurd rfl hop.1
      · exact absurd rfl hop.2
      · simp only [h]]
    simp [hop.2]
  constructor
  · intro hy
    have h1 := hy Oracle.id a a .current 0 0 rfl
    have h2 := key Oracle.id a a .current 0 0 rfl
    rw [h1] at h2
    injection h2 with h2
    injection h2
  · rintro rfl
    exact key

theorem applyOp2 {op : Op} {a b : V} {ord : Ord} {r : Res RErr V} (h : binop env op a b = some r) :
    applyOp env ord op [a, b] = r := by
  unfold applyOp
  split
  · simp [binop] at h
  · simp [binop] at h
  · simp only [h]

theorem eval2 {op : Op} {a b : V} {r : Res RErr V} (h : binop env op a b = some r)
    {oracle : Oracle} {root dot : V} {e1 e2 : Expr} {t t1 t2 : Nat}
    (h1 : evalExpr env oracle root dot e1 t = .ok (a, t1)) (h2 : evalExpr env oracle root dot e2 t1 = .ok (b, t2)) :
    evalExpr env oracle root dot (.inner op [e1, e2]) t = (r >>= fun v => .ok (v, t2)) := by
  have hop : op ≠ .call := by rintro rfl; simp [binop] at h
  simp only [evalExpr, evalKids, h1, h2, Res.bind_ok, applyOp2 h, hop, if_false]

/-- The operators with two operands. -/
theorem yields2_iff {op : Op} {a b r : V} {s : Res RErr V} (h : binop env op a b = some s) :
    Yields2 env op a b r ↔ s = .ok r := by
  constructor
  · intro hy
    have h1 := hy Oracle.id b a .current .root 0 0 0 rfl rfl
    rw [eval2 h rfl rfl] at h1
    cases s with
    | ok v => simp at h1; rw [h1]
    | err | panic | stuck => simp at h1
  · rintro rfl oracle root dot e1 e2 t t1 t2 h1 h2
    rw [eval2 h h1 h2]
    rfl

theorem yields2_ok {op : Op} {a b r s : V} (h : binop env op a b = some (.ok s)) :
    Yields2 env op a b r ↔ r = s := by
  rw [yields2_iff h]
  constructor
  · intro h; injection h with h; exact h.symm
  · rintro rfl; rfl

theorem raises2_iff {op : Op} {a b : V} {x : RErr} {s : Res RErr V} (h : binop env op a b = some s) :
    Raises2 env op a b x ↔ s = .err x := by
  constructor
  · intro hy
    have h1 := hy Oracle.id b a .current .root 0 0 0 rfl rfl
    rw [eval2 h rfl rfl] at h1
    cases s with
    | err v => simp at h1; rw [h1]
    | ok | panic | stuck => simp at h1
  · rintro rfl oracle root dot e1 e2 t t1 t2 h1 h2
    rw [eval2 h h1 h2]
    rfl

theorem Spec.Values.kids {oracle : Oracle} {root dot : V} {es : List Expr} {vs : List V} {t t1 : Nat}
    (h : Values env oracle root dot es vs t t1) : evalKids env oracle root dot es t = .ok (vs, t1) := by
  induction h with
  | nil => rfl
  | cons h1 _ ih => simp only [evalKids, h1, ih, Res.bind_ok]

/-- An array literal of values, used to give a function its arguments: there are operands for every list
of values that are all the same expression. -/
theorem evalCall {f : Bytes} {args : List V} {oracle : Oracle} {root dot : V} {es : List Expr} {t t1 : Nat}
    (h : Values env oracle root dot es args t t1) :
    evalExpr env oracle root dot (.inner .call (.name f :: es)) t = (call env (oracle t1) f args >>= fun v => .ok (v, t1 + 1)) := by
  simp only [evalExpr, evalKids, h.kids, Res.bind_ok, applyOp, if_true]

theorem yieldsCall_of {f : Bytes} {args : List V} {r : V} (h : ∀ ord, call env ord f args = .ok r) : YieldsCall env f args r := by
  intro oracle root dot es t t1 hv
  exact ⟨t1 + 1, by rw [evalCall hv, h]; rfl⟩

theorem raisesCall_of {f : Bytes} {args : List V} {x : RErr} (h : ∀ ord, call env ord f args = .err x) : RaisesCall env f args x := by
  intro oracle root dot es t t1 hv
  rw [evalCall hv, h]; rfl

/-- The element of an array selected by an index, negative indices counting from the end. -/
def indexVal (xs : List V) (n : Int) : V :=
  if 0 ≤ n then (xs[n.toNat]?).getD .nothing
  else if 0 ≤ n + xs.length then (xs[(n + xs.length).toNat]?).getD .nothing else .nothing

theorem opIndex_arr {xs : List V} {i : V} (hl : xs.length < 2 ^ 63) :
    opIndex env (.arr xs) i = if isNothing i then .nothing else indexVal xs (cvi env i).toInt := by
  have ha : isNothing (.arr xs) = false := rfl
  unfold opIndex
  cases hi : isNothing i with
  | true => simp [ha]
  | false =>
    simp only [ha, Bool.or_self, Bool.false_eq_true, if_false]
    have hL := i64_ofNat hl
    have hr := i64_range (cvi env i)
    unfold indexVal
    by_cases hn : cvi env i < 0
    · have hn' := Int64.lt_iff_toInt_lt.1 hn
      simp only [Int64.toInt_zero] at hn'
      have hadd : (cvi env i + Int64.ofNat xs.length).toInt = (cvi env i).toInt + xs.length := by
        rw [i64_add] <;> rw [hL] <;> omega
      simp only [hn, if_true, show ¬ (0 ≤ (cvi env i).toInt) by omega, if_false, Bool.or_eq_true, decide_eq_true_eq, ge_iff_le,
        Int64.lt_iff_toInt_lt, Int64.le_iff_toInt_le, hadd, hL, Int64.toInt_zero]
      by_cases h0 : 0 ≤ (cvi env i).toInt + xs.length
      · rw [if_neg (by omega), if_pos h0, goIndex_nat (n := ((cvi env i).toInt + xs.length).toNat) (by rw [hadd]; omega)]
      · rw [if_pos (by omega), if_neg h0]
    · have hn' : 0 ≤ (cvi env i).toInt := by
        rw [Int64.lt_iff_toInt_lt] at hn; simpa using hn
      simp only [hn, if_false, hn', if_true, Bool.or_eq_true, decide_eq_true_eq, ge_iff_le,
        Int64.le_iff_toInt_le, hL, false_or]
      by_cases h0 : (xs.length : Int) ≤ (cvi env i).toInt
      · rw [if_pos h0, List.getElem?_eq_none (by omega)]; rfl
      · rw [if_neg h0, goIndex_nat (n := (cvi env i).toInt.toNat) (by omega)]

/-- Any list of values can be supplied as arguments: the i-th as `@[i]` of an array. -/
theorem values_exist (args : List V) (hl : args.length < 2 ^ 63) (hn : ∀ v ∈ args, isNothing v = false) :
    ∃ es, ∀ (oracle : Oracle) (root : V) (t : Nat), Values env oracle root (.arr args) es args t t := by
  refine ⟨(List.range args.length).map fun i => .inner .index [.current, .int (Int64.ofNat i)], fun oracle root t => ?_⟩
  have : ∀ (pre post : List V), pre ++ post = args →
      Values env oracle root (.arr args) ((List.range' pre.length post.length).map fun i => .inner .index [.current, .int (Int64.ofNat i)]) post t t := by
    intro pre post
    induction post generalizing pre with
    | nil => intro _; exact .nil t
    | cons v r ih =>
      intro h
      simp only [List.length_cons, List.range'_succ, List.map_cons]
      refine .cons (t1 := t) ?_ ?_
      · have hb : binop env .index (.arr args) (.int (Int64.ofNat pre.length)) = some (.ok v) := by
          simp only [binop, opIndex_arr (xs := args) (by omega), isNothing, Bool.or_self]
          have h1 : (Int64.ofNat pre.length).toInt = pre.length := i64_ofNat (by subst h; simp at hl; omega)
          subst h
          simp [indexVal, cvi, h1]
        rw [eval2 hb rfl rfl]
        rfl
      · have := ih (pre ++ [v]) (by simp [h])
        simpa using this
  have := this [] args rfl
  simpa [List.range_eq_range'] using this

end JP
