import Verif.Proof.Presence
import Verif.Props.Ex
import Verif.Proof.KRfl
/-!
Tests for presence: C88.

The programs have fewer than 2^22 orders (part of `IsCompiled`), as all those of texts of at most 3 MB (C87).
-/
namespace JP
open Spec

variable (env : Env) (oracle : Oracle)

/-! ### C88 Filters that test for presence see only what is there and what is true -/

/-- Two documents that differ only in numbers and booleans, where each is true in one if and only if it is true in the
other: such a path selects values at the same places of both. -/
theorem C88_results (p : JSONPath) (q : Path) (h : IsCompiled env p q) (hq : TestsPresence q) (R : V → V → Prop) (hR : KeepsTruth env R)
    (d d' : V) (hd : SameShape R d d') (vs : List V) (he : Eval env oracle p d = some (.ok (some vs))) :
    ∃ vs', Eval env oracle p d' = some (.ok (some vs')) ∧ List.Forall₂ (SameShape R) vs vs' := by
  rw [h.eval] at he ⊢
  simp only [Option.some.injEq] at he
  have hr := evalPath_presence hR oracle hd q h.wf hq
  rw [he] at hr
  generalize evalPath env oracle d' q = y at hr
  cases hr with
  | ok hr => cases hr with | some hr => exact ⟨_, rfl, hr⟩

/-- Equal, or numbers and booleans with the same truth. -/
private def Likely (env : Env) (a b : V) : Prop := a = b ∨ (NumberOrBool a ∧ NumberOrBool b ∧ truthy env a = truthy env b)

private theorem likely (env : Env) : KeepsTruth env (Likely env) := ⟨fun _ _ => .inl rfl, fun _ _ h => h⟩

/-- `$[?(@.a&&!@[0])]` on `[{"a": 1}, {"a": 0}, [2]]` and `[{"a": true}, {"a": false}, [3]]`. -/
example := C88_results Ex.env Oracle.id _
  [⟨.filter, [.expr (.inner .and [.inner .dot [.current, .name (b! "a")], .inner .not [.inner .index [.current, .int 0]]])]⟩]
  ⟨⟨b! "$[?(@.a&&!@[0])]", rfl, rfl⟩, by decide⟩
  (by
    intro s hs e he
    simp only [List.mem_cons, List.not_mem_nil, or_false] at hs
    subst hs
    simp only [List.mem_cons, List.not_mem_nil, or_false, Val.expr.injEq] at he
    subst he
    exact ⟨fun _ => .and _ _ (.dot _ _ .current) (.not _ (.index _ _ .current rfl)), fun h => (h (.inl rfl)).elim⟩)
  (Likely Ex.env) (likely _)
  (.arr [.obj [(b! "a", .int 1)], .obj [(b! "a", .int 0)], .arr [.int 2]])
  (.arr [.obj [(b! "a", .bool true)], .obj [(b! "a", .bool false)], .arr [.int 3]])
  (.arr (.cons (.obj rfl (.cons (.scalar trivial trivial (.inr ⟨trivial, trivial, rfl⟩)) .nil))
    (.cons (.obj rfl (.cons (.scalar trivial trivial (.inr ⟨trivial, trivial, rfl⟩)) .nil))
    (.cons (.arr (.cons (.scalar trivial trivial (.inr ⟨trivial, trivial, rfl⟩)) .nil)) .nil))))
  [.obj [(b! "a", .int 1)]] (run_of_runFuel 120 _ (by krfl))

/-- The errors are the same. -/
theorem C88_errors (p : JSONPath) (q : Path) (h : IsCompiled env p q) (hq : TestsPresence q) (R : V → V → Prop) (hR : KeepsTruth env R)
    (d d' : V) (hd : SameShape R d d') (e : RErr) (he : Eval env oracle p d = some (.err e)) : Eval env oracle p d' = some (.err e) := by
  rw [h.eval] at he ⊢
  simp only [Option.some.injEq] at he
  have hr := evalPath_presence hR oracle hd q h.wf hq
  rw [he] at hr
  generalize evalPath env oracle d' q = y at hr
  cases hr
  rfl

/-- `$[?(1 in 2)]` fails on `[1]` and `[true]`. -/
example := C88_errors Ex.env Oracle.id _ [⟨.filter, [.expr (.inner .in_ [.int 1, .int 2])]⟩] ⟨⟨b! "$[?(1 in 2)]", rfl, rfl⟩, by decide⟩
  (by
    intro s hs e he
    simp only [List.mem_cons, List.not_mem_nil, or_false] at hs
    subst hs
    simp only [List.mem_cons, List.not_mem_nil, or_false, Val.expr.injEq] at he
    subst he
    exact ⟨fun _ => .constant _ rfl, fun _ => rfl⟩)
  (Likely Ex.env) (likely _) (.arr [.int 1]) (.arr [.bool true])
  (.arr (.cons (.scalar trivial trivial (.inr ⟨trivial, trivial, rfl⟩)) .nil)) (.inRight .in_ (.int 2)) (run_of_runFuel 60 _ (by krfl))

/-- The truth must be kept: `$[?(@)]` tells `[1]` from `[0]`. -/
theorem C88_truth_needed : ∃ (p : JSONPath) (q : Path) (d d' v : V), IsCompiled Ex.env p q ∧ TestsPresence q ∧
    SameShape (fun a b => a = b ∨ (NumberOrBool a ∧ NumberOrBool b)) d d' ∧
    Eval Ex.env Oracle.id p d = some (.ok (some [v])) ∧ Eval Ex.env Oracle.id p d' = some (.ok (some [])) := by
  refine ⟨_, [⟨.filter, [.expr .current]⟩], .arr [.int 1], .arr [.int 0], .int 1, ⟨⟨b! "$[?(@)]", rfl, rfl⟩, by decide⟩, ?_,
    .arr (.cons (.scalar trivial trivial (.inr ⟨trivial, trivial⟩)) .nil), run_of_runFuel 60 _ (by krfl), run_of_runFuel 60 _ (by krfl)⟩
  intro s hs e he
  simp only [List.mem_cons, List.not_mem_nil, or_false] at hs
  subst hs
  simp only [List.mem_cons, List.not_mem_nil, or_false, Val.expr.injEq] at he
  subst he
  exact ⟨fun _ => .current, fun h => (h (.inl rfl)).elim⟩

end JP
