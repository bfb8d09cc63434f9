import Verif.Proof.Rename
import Verif.Props.Ex
import Verif.Proof.KRfl
/-!
Other names for members: C86.

The programs have fewer than 2^22 orders (part of `IsCompiled`), as all those of texts of at most 3 MB (C87).
-/
namespace JP
open Spec

variable (env : Env) (oracle : Oracle)

/-! ### C86 Names of members mean nothing by themselves -/

/-- If members are given other names, different ones for different names, a path with these names selects the same values
in the same order, with their members renamed. -/
theorem C86_results {f : Bytes → Bytes} (hf : Function.Injective f) (p p' : JSONPath) (q : Path) (h : IsCompiled env p q)
    (h' : IsCompiled env p' (renamePath f q)) (hr : Renames f q) (d : V) (vs : List V) (he : Eval env oracle p d = some (.ok (some vs))) :
    Eval env oracle p' (rename f d) = some (.ok (some (vs.map (rename f)))) := by
  rw [h.eval] at he
  rw [h'.eval]
  simp only [Option.some.injEq] at he
  have hr := ren_evalPath env hf oracle d q hr
  rw [he] at hr
  generalize evalPath env oracle (rename f d) (renamePath f q) = y at hr
  cases hr with
  | ok hr => rw [hr]; rfl

/-- Names spelt backwards: `$..xa[0,"yb"]` and `$..ax[0,"by"]`. -/
example := C86_results Ex.env Oracle.id (f := List.reverse) (fun _ _ h => by simpa using h) _ _
  [⟨.nestMember, [.name (b! "xa")]⟩, ⟨.union, [.int 0, .str (b! "yb")]⟩] ⟨⟨b! "$..xa[0,\"yb\"]", rfl, rfl⟩, by decide⟩
  ⟨⟨b! "$..ax[0,\"by\"]", rfl, rfl⟩, by decide⟩
  (by
    intro s hs
    simp only [List.mem_cons, List.not_mem_nil, or_false] at hs
    rcases hs with rfl | rfl
    · exact ⟨by decide, by decide, by simp, by simp⟩
    · refine ⟨by decide, by decide, by simp, ?_⟩
      intro n hn
      simp only [List.mem_cons, List.not_mem_nil, or_false, Val.int.injEq, reduceCtorEq] at hn
      subst hn
      rfl)
  (.obj [(b! "xa", .obj [(b! "yb", .obj [(b! "zc", .null)])])]) [.obj [(b! "zc", .null)]] (run_of_runFuel 60 _ (by krfl))

/-- The errors are the same, if there are any. -/
theorem C86_errors {f : Bytes → Bytes} (hf : Function.Injective f) (p p' : JSONPath) (q : Path) (h : IsCompiled env p q)
    (h' : IsCompiled env p' (renamePath f q)) (hr : Renames f q) (d : V) (e : RErr) :
    Eval env oracle p d = some (.err e) ↔ Eval env oracle p' (rename f d) = some (.err e) := by
  rw [h.eval, h'.eval]
  simp only [Option.some.injEq]
  have hr := ren_evalPath env hf oracle d q hr
  generalize evalPath env oracle (rename f d) (renamePath f q) = y at hr
  generalize evalPath env oracle d q = x at hr
  cases hr <;> simp

example := C86_errors Ex.env Oracle.id (f := fun k => 120 :: k) (by intro a b h; simpa using h) _ _
  [⟨.member, [.name (b! "a")]⟩] ⟨⟨b! "$.a", rfl, rfl⟩, by decide⟩ ⟨⟨b! "$.xa", rfl, rfl⟩, by decide⟩
  (by intro s hs; simp only [List.mem_cons, List.not_mem_nil, or_false] at hs; subst hs; exact ⟨by decide, by decide, by simp, by simp⟩)

/-- The condition on integers is needed, since `$[1]` also selects the member called `1`. -/
theorem C86_integers_matter : ∃ p, Compile env (b! "$[1]") = .ok p ∧
    Eval env oracle p (.obj [(b! "1", .null)]) = some (.ok (some [.null])) ∧
    Eval env oracle p (rename (fun k => 120 :: k) (.obj [(b! "1", .null)])) = some (.ok (some [])) :=
  ⟨_, rfl, run_of_runFuel 40 _ (by rfl), run_of_runFuel 40 _ (by simp only [rename, renameMembers]; rfl)⟩

/-- And so is the one on filters, which can see names: `$[?("a" in keys(@))]`. -/
theorem C86_filters_matter : ∃ p, Compile env (b! "$[?(\"a\" in keys(@))]") = .ok p ∧
    Eval env Oracle.id p (.arr [.obj [(b! "a", .null)]]) = some (.ok (some [.obj [(b! "a", .null)]])) ∧
    Eval env Oracle.id p (rename (fun k => 120 :: k) (.arr [.obj [(b! "a", .null)]])) = some (.ok (some [])) :=
  ⟨_, rfl, run_of_runFuel 60 _ (by krfl), run_of_runFuel 60 _ (by simp only [rename, renameElements, renameMembers]; krfl)⟩

end JP
