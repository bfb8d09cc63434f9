import Verif.Proof.Numbers
import Verif.Props.Ex
import Verif.Proof.KRfl
/-!
The Go types of integers: C71.

The programs have fewer than 2^22 orders (part of `IsCompiled`), as all those of texts of at most 3 MB (C87).

In full the claim is that documents that differ only in the types of their integers (`int` or `int64`) give results
that differ only in those.  The code does not meet it: `abs` of the least integer fails for an `int64`, and is that
integer itself for an `int`.  The theorems leave out the paths that call `abs`, except on documents without that
integer as an `int`.
-/
namespace JP
open Spec

variable (env : Env) (oracle : Oracle)

/-! ### C71 The Go types of integers do not matter -/

/-- Documents that differ only in the types of their integers give the same results, but for those types. -/
theorem C71_results_partial (p : JSONPath) (q : Path) (h : IsCompiled env p q) (d d' : V) (hd : d.asInt64 = d'.asInt64)
    (ha : q.NoAbs ∨ (d.noLeastInt = true ∧ d'.noLeastInt = true)) (vs : List V)
    (he : Eval env oracle p d = some (.ok (some vs))) :
    ∃ vs', Eval env oracle p d' = some (.ok (some vs')) ∧ Vs.asInt64 vs = Vs.asInt64 vs' := by
  rw [h.eval] at he ⊢
  simp only [Option.some.injEq] at he
  obtain ⟨P, hP⟩ := evalPath_alike (env := env) (oracle := oracle) h.wf hd ha
  rw [he] at hP
  obtain ⟨vs', h1, h2⟩ := ok_of_soft hP
  exact ⟨vs', by rw [h1], h2⟩

/-- `$[?(abs(@)>1)]` on `[-2, 1]` with the first of the two types, and with the second. -/
example := C71_results_partial Ex.env Oracle.id _ _ ⟨⟨b! "$[?(abs(@)>1)]", rfl, rfl⟩, by decide⟩ (.arr [.gint (-2), .int 1])
  (.arr [.int (-2), .gint 1]) rfl (.inr (by decide)) [.gint (-2)] (run_of_runFuel 40 _ (by krfl))

/-- `$[?(@<0)]` on the least integer. -/
example := C71_results_partial Ex.env Oracle.id _ _ ⟨⟨b! "$[?(@<0)]", rfl, rfl⟩, by decide⟩ (.arr [.gint Int64.minValue])
  (.arr [.int Int64.minValue]) rfl
  (.inl (by intro s hs e he; simp at hs; subst hs; simp at he; subst he; decide)) [.gint Int64.minValue] (run_of_runFuel 40 _ (by krfl))

/-- They give the same errors, but for those types in the values that an error mentions. -/
theorem C71_errors_partial (p : JSONPath) (q : Path) (h : IsCompiled env p q) (d d' : V) (hd : d.asInt64 = d'.asInt64)
    (ha : q.NoAbs ∨ (d.noLeastInt = true ∧ d'.noLeastInt = true)) (e : RErr) (he : Eval env oracle p d = some (.err e)) :
    ∃ e', Eval env oracle p d' = some (.err e') ∧ e.asInt64 = e'.asInt64 := by
  rw [h.eval] at he ⊢
  simp only [Option.some.injEq] at he
  obtain ⟨P, hP⟩ := evalPath_alike (env := env) (oracle := oracle) h.wf hd ha
  rw [he] at hP
  obtain ⟨e', h1, h2⟩ := err_of_soft hP
  exact ⟨e', by rw [h1], h2⟩

/-- `$[?(1 in @)]` on `[2]`: `in` requires an array. -/
example := C71_errors_partial Ex.env Oracle.id _ _ ⟨⟨b! "$[?(1 in @)]", rfl, rfl⟩, by decide⟩ (.arr [.gint 2]) (.arr [.int 2]) rfl
  (.inr (by decide)) (.inRight .in_ (.gint 2)) (run_of_runFuel 40 _ (by krfl))

/-- For `abs` of the least integer the types do matter: `$[?(abs(@)<0)]` selects it, if it is an `int`, but not if it is
an `int64`. -/
theorem C71_abs : ∃ (p : JSONPath) (q : Path) (d d' : V) (vs : List V), IsCompiled env p q ∧ d.asInt64 = d'.asInt64 ∧
    Eval env oracle p d = some (.ok (some vs)) ∧
    ¬ ∃ vs', Eval env oracle p d' = some (.ok (some vs')) ∧ Vs.asInt64 vs = Vs.asInt64 vs' := by
  refine ⟨_, _, .arr [.gint Int64.minValue], .arr [.int Int64.minValue], [.gint Int64.minValue], ⟨⟨b! "$[?(abs(@)<0)]", rfl, rfl⟩, by decide⟩, rfl,
    run_of_runFuel 40 _ (by krfl), ?_⟩
  rintro ⟨vs', h1, h2⟩
  have h3 := h1.symm.trans (run_of_runFuel (r := .ok (some [])) 40 _ (by krfl))
  cases h3
  cases h2

end JP
