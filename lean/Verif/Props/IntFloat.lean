import Verif.Proof.IntFloat
import Verif.Props.Ex
import Verif.Proof.KRfl
/-!
Integers and floats of the same value: C95.

The programs have fewer than 2^22 orders (part of `IsCompiled`), as all those of texts of at most 3 MB (C87).

In full the claim is that a document in which integers are held as integers and one in which they are held as floats
give results at the same places.  The code does not meet it: division rounds for integers only, a string of a fraction
is compared with an integer by its value as an integer, which is 0, and integers of more than 53 bits differ from their
floats.  The theorems leave out arithmetic and functions, equality of values with each other or with strings of numbers,
and greater integers.
-/
namespace JP
open Spec F64

variable (env : Env) (oracle : Oracle)

/-! ### C95 Integers and floats of the same value -/

/-- The full statement, for integers of at most 53 bits. -/
def IntsAsFloats (env : Env) : Prop :=
  ∀ (p : JSONPath) (q : Path), IsCompiled env p q → ∀ (oracle : Oracle) (d d' : V), SameShape SameWhole d d' → ∀ vs,
    Eval env oracle p d = some (.ok (some vs)) →
    ∃ vs', Eval env oracle p d' = some (.ok (some vs')) ∧ List.Forall₂ (SameShape SameWhole) vs vs'

theorem whole_ofInt (k : Int64) (h : |k.toInt| < 2 ^ 53) : SameWhole (.int k) (.float (ofInt k.toInt)) := by
  obtain ⟨h0, h1, h2⟩ := whole_abs h
  exact .inr ⟨k.toInt, h, .int k rfl, .float _ (ofInt_finite _ h0) (ofInt_exact (by omega) (by omega))⟩

/-- It is false for division: `$[?(@/2==1)]` selects 3 as an integer, and not as a float. -/
theorem C95_division : ¬ IntsAsFloats env := by
  intro h
  obtain ⟨vs', h1, h2⟩ := h _ _ ⟨⟨b! "$[?(@/2==1)]", rfl, rfl⟩, by decide⟩ Oracle.id (.arr [.int 3]) (.arr [.float (ofInt 3)])
    (.arr (.cons (.scalar trivial trivial (whole_ofInt 3 (by decide))) .nil)) [.int 3] (run_of_runFuel 40 _ (by krfl))
  have h3 := h1.symm.trans (run_of_runFuel (r := .ok (some [])) 40 _ (by krfl))
  cases h3
  cases h2

/-- It is false for equality with a string of a fraction: `$[?(@=='0.5')]` selects 0 as an integer, and not as a float. -/
theorem C95_strings : ¬ IntsAsFloats env := by
  intro h
  obtain ⟨vs', h1, h2⟩ := h _ _ ⟨⟨b! "$[?(@=='0.5')]", rfl, rfl⟩, by decide⟩ Oracle.id (.arr [.int 0]) (.arr [.float (ofInt 0)])
    (.arr (.cons (.scalar trivial trivial (whole_ofInt 0 (by decide))) .nil)) [.int 0] (run_of_runFuel 40 _ (by krfl))
  have h3 := h1.symm.trans (run_of_runFuel (r := .ok (some [])) 40 _ (by krfl))
  cases h3
  cases h2

set_option maxHeartbeats 2000000 in
/-- It is false for equality of values with each other, even if neither is a string: `$[?(@[0]==@[1])]` selects `[0, [null]]`
with the integer, and not with the float. -/
theorem C95_values : ¬ IntsAsFloats env := by
  intro h
  obtain ⟨vs', h1, h2⟩ := h _ _ ⟨⟨b! "$[?(@[0]==@[1])]", rfl, rfl⟩, by decide⟩ Oracle.id (.arr [.arr [.int 0, .arr [.null]]])
    (.arr [.arr [.float (ofInt 0), .arr [.null]]])
    (.arr (.cons (.arr (.cons (.scalar trivial trivial (whole_ofInt 0 (by decide)))
      (.cons (.arr (.cons (.scalar trivial trivial (.inl rfl)) .nil)) .nil))) .nil))
    [.arr [.int 0, .arr [.null]]] (run_of_runFuel 60 _ (by krfl))
  have h3 := h1.symm.trans (run_of_runFuel (r := .ok (some [])) 60 _ (by krfl))
  cases h3
  cases h2

/-- For the integer of 54 bits 2^53 it is false even for an equality with a literal: `$[?(@==9007199254740993)]` selects it as
a float, and not as an integer. -/
theorem C95_large : ∃ (p : JSONPath) (q : Path) (d d' : V) (n : Int) (a b : V), IsCompiled env p q ∧ OnlyCompares env q ∧ n = 2 ^ 53 ∧
    IsWhole n a ∧ IsWhole n b ∧ d = .arr [a] ∧ d' = .arr [b] ∧ Eval env oracle p d = some (.ok (some [])) ∧
    Eval env oracle p d' = some (.ok (some [b])) := by
  refine ⟨_, [⟨.filter, [.expr (.inner .eq [.current, .int 9007199254740993])]⟩], _, _, 2 ^ 53, .int 9007199254740992,
    .float (ofInt 9007199254740992), ⟨⟨b! "$[?(@==9007199254740993)]", rfl, rfl⟩, by decide⟩, ?_, rfl, .int _ rfl,
    .float _ (ofInt_finite _ (by decide)) (ofInt_exact (by decide) (by decide)), rfl, rfl,
    run_of_runFuel 40 _ (by krfl), run_of_runFuel 40 _ (by krfl)⟩
  intro s hs e he
  simp only [List.mem_cons, List.not_mem_nil, or_false] at hs
  subst hs
  simp only [List.mem_cons, List.not_mem_nil, or_false, Val.expr.injEq] at he
  subst he
  exact ⟨fun _ => .equal _ _ _ (.inl rfl) .current (.int _), fun h => (h (.inl rfl)).elim⟩

/-- Paths whose filters compare values by order, and with literals for equality: integers of at most 53 bits may be held as
integers or as floats, and values at the same places are selected. -/
theorem C95_results_partial (p : JSONPath) (q : Path) (h : IsCompiled env p q) (hq : OnlyCompares env q)
    (d d' : V) (hd : SameShape SameWhole d d') (vs : List V) (he : Eval env oracle p d = some (.ok (some vs))) :
    ∃ vs', Eval env oracle p d' = some (.ok (some vs')) ∧ List.Forall₂ (SameShape SameWhole) vs vs' := by
  rw [h.eval] at he ⊢
  simp only [Option.some.injEq] at he
  have hr := evalPath_compares oracle hd q h.wf hq
  rw [he] at hr
  generalize evalPath env oracle d' q = y at hr
  cases hr with
  | ok hr => cases hr with | some hr => exact ⟨_, rfl, hr⟩

set_option maxHeartbeats 2000000 in
/-- `$[?(@<=$[0]&&@!=2)]` on `[3, 2, 1]` as integers and as floats. -/
example := C95_results_partial Ex.env Oracle.id _
  [⟨.filter, [.expr (.inner .and [.inner .le [.current, .inner .index [.root, .int 0]], .inner .ne [.current, .int 2]])]⟩]
  ⟨⟨b! "$[?(@<=$[0]&&@!=2)]", rfl, rfl⟩, by decide⟩
  (by
    intro s hs e he
    simp only [List.mem_cons, List.not_mem_nil, or_false] at hs
    subst hs
    simp only [List.mem_cons, List.not_mem_nil, or_false, Val.expr.injEq] at he
    subst he
    exact ⟨fun _ => .and _ _ (.order _ _ _ (.inr (.inl rfl)) .current (.index _ _ .root rfl)) (.equal _ _ _ (.inr rfl) .current (.int 2)),
      fun h => (h (.inl rfl)).elim⟩)
  (.arr [.int 3, .int 2, .int 1]) (.arr [.float (ofInt 3), .float (ofInt 2), .float (ofInt 1)])
  (.arr (.cons (.scalar trivial trivial (whole_ofInt 3 (by decide))) (.cons (.scalar trivial trivial (whole_ofInt 2 (by decide)))
    (.cons (.scalar trivial trivial (whole_ofInt 1 (by decide))) .nil))))
  [.int 3, .int 1] (run_of_runFuel 120 _ (by krfl))

/-- The errors are the same. -/
theorem C95_errors_partial (p : JSONPath) (q : Path) (h : IsCompiled env p q) (hq : OnlyCompares env q)
    (d d' : V) (hd : SameShape SameWhole d d') (e : RErr) (he : Eval env oracle p d = some (.err e)) : Eval env oracle p d' = some (.err e) := by
  rw [h.eval] at he ⊢
  simp only [Option.some.injEq] at he
  have hr := evalPath_compares oracle hd q h.wf hq
  rw [he] at hr
  generalize evalPath env oracle d' q = y at hr
  cases hr
  rfl

set_option maxHeartbeats 2000000 in
/-- `$[?(@ in [2]&&1 in 2)]` fails on `[2]` and on the same as a float. -/
example := C95_errors_partial Ex.env Oracle.id _
  [⟨.filter, [.expr (.inner .and [.inner .in_ [.current, .inner .array [.int 2]], .inner .in_ [.int 1, .int 2]])]⟩]
  ⟨⟨b! "$[?(@ in [2]&&1 in 2)]", rfl, rfl⟩, by decide⟩
  (by
    intro s hs e he
    simp only [List.mem_cons, List.not_mem_nil, or_false] at hs
    subst hs
    simp only [List.mem_cons, List.not_mem_nil, or_false, Val.expr.injEq] at he
    subst he
    exact ⟨fun _ => .and _ _ (.among _ _ _ (.inl rfl) .current (by intro k hk; simp at hk; subst hk; exact .int 2)) (.constant _ rfl),
      fun h => (h (.inl rfl)).elim⟩)
  (.arr [.int 2]) (.arr [.float (ofInt 2)]) (.arr (.cons (.scalar trivial trivial (whole_ofInt 2 (by decide))) .nil))
  (.inRight .in_ (.int 2)) (run_of_runFuel 60 _ (by krfl))

end JP
