import Verif.Proof.JsonEq
import Verif.Proof.Ops
import Verif.Props.Ex
import Verif.Proof.KRfl
/-!
Equality of documents: C90.
-/
namespace JP
open Spec F64

variable (env : Env)

/-! ### C90 == decides whether two documents are the same JSON value -/

private theorem eq_true {a b : V} : Yields2 env .eq a b (.bool true) ↔ eqVal env a b = true := by
  rw [yields2_ok rfl]
  constructor
  · intro h; injection h with h; exact h.symm
  · intro h; rw [h]

/-- Full statement: documents are equal in an expression if and only if they are the same JSON value. -/
def JsonRule : Prop := ∀ a b : V, a.WF → b.WF → (Yields2 env .eq a b (.bool true) ↔ JsonEq a b)

/-- It is false: `{"a": null} == {"b": null}` is true. -/
theorem C90_fails : ¬ JsonRule env := by
  intro h
  have h1 := (h (.obj [(b! "a", .null)]) (.obj [(b! "b", .null)]) (by simp [V.WF, WFm]) (by simp [V.WF, WFm])).1
    ((eq_true env).2 (by simp [eqVal, eqMembers, typeOf, lookup, eqMixed]))
  cases h1 with
  | number _ _ q h => cases h
  | obj _ _ h _ =>
    have := (h (b! "a")).1 (by simp)
    revert this
    decide

/-- The same JSON value is always equal: whatever the order of members and the Go types of numbers. -/
theorem C90_same (a b : V) (ha : a.WF) (hb : b.WF) (h : JsonEq a b) : Yields2 env .eq a b (.bool true) :=
  (eq_true env).2 (jsonEq_eq a b ha hb h)

private theorem ex_same : JsonEq (.obj [(b! "a", .int 1), (b! "b", .null)]) (.obj [(b! "b", .null), (b! "a", .gint 1)]) := by
  refine .obj _ _ (fun k => by simp [or_comm]) ?_
  intro k v w h1 h2
  simp only [List.mem_cons, List.not_mem_nil, or_false, Prod.mk.injEq] at h1 h2
  rcases h1 with ⟨rfl, rfl⟩ | ⟨rfl, rfl⟩ <;> rcases h2 with ⟨h, rfl⟩ | ⟨h, rfl⟩
  · exact absurd h (by decide)
  · exact .number _ _ _ (.int 1) (.gint 1)
  · exact .null
  · exact absurd h (by decide)

/-- `{"a": 1, "b": null} == {"b": null, "a": 1}` -/
example := C90_same Ex.env _ _ (by simp [V.WF, WFm]) (by simp [V.WF, WFm]) ex_same

/-- If the values are of the same kinds throughout, it is also only then that they are equal.  Not covered: conversions
between kinds (C20, C54, C57), a null for a missing member, and integers of more than 53 bits against floats (C75), where it
is false. -/
theorem C90_only_partial (a b : V) (ha : a.WF) (hb : b.WF) (hk : SameKinds a b) : Yields2 env .eq a b (.bool true) ↔ JsonEq a b :=
  ⟨fun h => eq_jsonEq a b ha hb hk ((eq_true env).1 h), C90_same env a b ha hb⟩

private theorem ex_kinds (m n : Int64) : SameKinds (.arr [.int m, .str (b! "x")]) (.arr [.int n, .str (b! "y"), .null]) := by
  refine .arr _ _ ?_
  intro i x y h1 h2
  match i with
  | 0 => simp at h1 h2; subst h1; subst h2; exact .number _ _ _ _ (.int m) (.int n) (.inl ⟨trivial, trivial⟩)
  | 1 => simp at h1 h2; subst h1; subst h2; exact .str _ _
  | i + 2 => simp at h1

example := C90_only_partial Ex.env _ _ (by simp [V.WF, WFs]) (by simp [V.WF, WFs]) (ex_kinds 1 2)

/-- Full statement: equality is transitive. -/
def TransitiveRule : Prop := ∀ a b c : V, a.WF → b.WF → c.WF →
  Yields2 env .eq a b (.bool true) → Yields2 env .eq b c (.bool true) → Yields2 env .eq a c (.bool true)

/-- It is false, as in JavaScript: `"" == 0` and `0 == "0"`, but not `"" == "0"`. -/
theorem C90_transitive_fails : ¬ TransitiveRule env := by
  intro h
  have h1 := (eq_true env).1 (h (.str []) (.int 0) (.str (b! "0")) trivial trivial trivial
    ((eq_true env).2 (by simp [eqVal, eqMixed, typeOf, badNum, cvs, eqNum_eq, isFloat, cvi]))
    ((eq_true env).2 (by
      have hp : parseInt (b! "0") = some 0 := by decide
      simp [eqVal, eqMixed, typeOf, badNum, cvs, eqNum_eq, isFloat, cvi, hp])))
  simp [eqVal, typeOf] at h1

/-- It is true of documents of the same kinds. -/
theorem C90_transitive_partial (a b c : V) (ha : a.WF) (hb : b.WF) (hc : c.WF) (h1 : SameKinds a b) (h2 : SameKinds b c)
    (e1 : Yields2 env .eq a b (.bool true)) (e2 : Yields2 env .eq b c (.bool true)) : Yields2 env .eq a c (.bool true) :=
  C90_same env a c ha hc (jsonEq_trans a b c ((C90_only_partial env a b ha hb h1).1 e1) ((C90_only_partial env b c hb hc h2).1 e2))

example := C90_transitive_partial Ex.env (.str (b! "x")) (.str (b! "x")) (.str (b! "x")) trivial trivial trivial (.str _ _) (.str _ _)
  ((eq_true _).2 (by simp [eqVal, typeOf])) ((eq_true _).2 (by simp [eqVal, typeOf]))

/-- So `in` and `contains` tell whether the same JSON value is among the elements. -/
theorem C90_in_partial (v : V) (xs : List V) (hv : v.WF) (hx : (V.arr xs).WF) (hk : ∀ x ∈ xs, SameKinds x v) :
    (Yields2 env .in_ v (.arr xs) (.bool true) ↔ ∃ x ∈ xs, JsonEq x v) ∧
    ((∃ x ∈ xs, JsonEq x v) → YieldsCall env (b! "contains") [.arr xs, v] (.bool true)) ∧
    ((¬ ∃ x ∈ xs, JsonEq x v) → YieldsCall env (b! "contains") [.arr xs, v] (.bool false)) := by
  have hs : searchJSON env xs v true = true ↔ ∃ x ∈ xs, JsonEq x v := by
    have key : ∀ ys : List V, (∀ x ∈ ys, x ∈ xs) → (searchJSON env ys v true = true ↔ ∃ x ∈ ys, JsonEq x v) := by
      intro ys
      induction ys with
      | nil => intro _; simp [searchJSON]
      | cons y ys ih =>
        intro h
        have hy := C90_only_partial env y v (wf_elem hx (h y (by simp))) hv (hk y (h y (by simp)))
        rw [eq_true] at hy
        unfold searchJSON
        by_cases he : eqVal env y v = true
        · simp only [he, if_true, true_iff]
          exact ⟨y, by simp, hy.1 he⟩
        · rw [if_neg he, ih fun x hx => h x (by simp [hx])]
          have hn : ¬ JsonEq y v := fun hj => he (hy.2 hj)
          simp [hn]
    exact key xs fun _ h => h
  have hc : ∀ ys : List V, containsElem env v ys = searchJSON env ys v true := by
    intro ys
    induction ys with
    | nil => rfl
    | cons y ys ih => unfold containsElem searchJSON; rw [ih]
  have hr : ∀ ord, call env ord (b! "contains") [.arr xs, v] = .ok (.bool (searchJSON env xs v true)) := by
    intro ord
    show Res.ok (V.bool (containsElem env v xs)) = _
    rw [hc]
  refine ⟨?_, fun h => yieldsCall_of fun ord => ?_, fun h => yieldsCall_of fun ord => ?_⟩
  · rw [yields2_iff rfl, ← hs]
    have hn : isNothing v = false := by cases v <;> first | rfl | exact hv.elim
    have h0 : isNothing (.arr xs) = false := rfl
    simp [opIn, hn, h0]
  · rw [hr, hs.2 h]
  · rw [hr, Bool.eq_false_iff.2 fun h' => h (hs.1 h')]

example := C90_in_partial Ex.env (.str (b! "x")) [.str (b! "y"), .str (b! "x")] trivial (by simp [V.WF, WFs])
  (by intro x hx; simp only [List.mem_cons, List.not_mem_nil, or_false] at hx; rcases hx with rfl | rfl <;> exact .str _ _)

end JP
