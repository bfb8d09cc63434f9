import Verif.Proof.Grow
import Verif.Props.Ex
import Verif.Proof.KRfl
/-!
Growing documents: C78.

The programs have fewer than 2^22 orders (part of `IsCompiled`), as all those of texts of at most 3 MB (C87).

In full the claim is that what a path without filters selects is still selected, grown perhaps, when members are added to objects
and elements to the ends of arrays.  The code does not meet it for negative integers and slices, which count from the
end of an array, and for slices that meet an object.  It is proved for names, integers that are not negative, unions of
these, and `*`, with or without `..`.
-/
namespace JP
open Spec

variable (env : Env) (oracle : Oracle)

/-! ### C78 What is selected grows with the document -/

/-- What a path of names, integers, unions of these and `*` selects, with or without `..`: all steps together, up to order. -/
theorem C78_meaning (hv : oracle.Valid) (p : JSONPath) (q : Path) (h : IsCompiled env p q) (hp : PlainPath q) (d : V) (hd : d.WF) :
    ∃ vs, Eval env oracle p d = some (.ok (some vs)) ∧ vs.Perm (pathOf q d) := by
  rw [h.eval]
  obtain ⟨vs, h1, h2⟩ := evalPath_plain (env := env) hv hd q h.wf hp
  exact ⟨vs, by rw [h1], h2⟩

private theorem plain_ex : PlainPath [⟨.nestMember, [.name (b! "a")]⟩, ⟨.wild, []⟩] := by
  intro s hs
  simp only [List.mem_cons, List.not_mem_nil, or_false] at hs
  rcases hs with rfl | rfl
  · exact .inr ⟨_, .member (b! "a"), rfl⟩
  · exact .inl .wild

example := C78_meaning Ex.env Oracle.id Ex.valid _ [⟨.nestMember, [.name (b! "a")]⟩, ⟨.wild, []⟩] ⟨⟨b! "$..a.*", rfl, rfl⟩, by decide⟩ plain_ex Ex.doc Ex.doc_wf

/-- Full statement: all paths whose steps are not filters. -/
def GrowthRule : Prop :=
  ∀ (oracle : Oracle), oracle.Valid → ∀ (p : JSONPath) (q : Path), IsCompiled env p q → (∀ s ∈ q, s.op ≠ .filter ∧ s.op ≠ .nestFilter) →
    ∀ (d d' : V), d.WF → d'.WF → GrowsTo d d' → ∀ vs vs', Eval env oracle p d = some (.ok (some vs)) →
    Eval env oracle p d' = some (.ok (some vs')) → Kept vs vs'

/-- It is false for negative integers: `$[-1]` selects 1 of `[1]`, but not of `[1, 2]`. -/
theorem C78_negative_fails : ¬ GrowthRule env := by
  intro h
  obtain ⟨ws, rest, h1, h2⟩ := h Oracle.id Ex.valid _ [⟨.select, [.int (-1)]⟩] ⟨⟨b! "$[-1]", rfl, rfl⟩, by decide⟩ (by
      intro s hs
      simp only [List.mem_cons, List.not_mem_nil, or_false] at hs
      subst hs
      exact ⟨by decide, by decide⟩) (.arr [.int 1]) (.arr [.int 1, .int 2]) (by simp [V.WF, WFs]) (by simp [V.WF, WFs])
    (.arr (ys := [.int 1]) (zs := [.int 2]) (.cons (.scalar trivial) .nil)) [.int 1] [.int 2] (run_of_runFuel 40 _ (by krfl))
    (run_of_runFuel 40 _ (by krfl))
  cases h2 with
  | cons h2 h3 =>
    cases h2
    have := h1.symm.subset (List.mem_cons_self ..)
    simp at this

/-- It is also false for slices without negative numbers: `$[*][0:1]` selects 1 of `[[1]]`, but nothing of `[[1], {}]`. -/
theorem C78_slice_fails : ¬ GrowthRule env := by
  intro h
  obtain ⟨ws, rest, h1, h2⟩ := h Oracle.id Ex.valid _ [⟨.wild, []⟩, ⟨.select, [.slice ⟨some (.int 0), some (.int 1), none⟩]⟩] ⟨⟨b! "$[*][0:1]", rfl, rfl⟩, by decide⟩ (by
      intro s hs
      simp only [List.mem_cons, List.not_mem_nil, or_false] at hs
      rcases hs with rfl | rfl
      · exact ⟨by decide, by decide⟩
      · exact ⟨by decide, by decide⟩) (.arr [.arr [.int 1]]) (.arr [.arr [.int 1], .obj []])
    (by simp [V.WF, WFs]) (by simp [V.WF, WFs, WFm])
    (.arr (ys := [.arr [.int 1]]) (zs := [.obj []]) (.cons (.arr (ys := [.int 1]) (zs := []) (.cons (.scalar trivial) .nil)) .nil))
    [.int 1] [] (run_of_runFuel 40 _ (by krfl)) (run_of_runFuel 40 _ (by krfl))
  cases h2 with
  | cons h2 h3 => exact absurd h1.length_eq (by simp)

/-- What such a path selects is also selected of a document that has grown, and has grown with it; different results
remain different. -/
theorem C78_growth_partial (hv : oracle.Valid) (p : JSONPath) (q : Path) (h : IsCompiled env p q) (hp : PlainPath q) (hn : NonNegative q)
    (d d' : V) (hd : d.WF) (hd' : d'.WF) (hg : GrowsTo d d') (vs vs' : List V) (he : Eval env oracle p d = some (.ok (some vs)))
    (he' : Eval env oracle p d' = some (.ok (some vs'))) : Kept vs vs' := by
  obtain ⟨us, h1, h2⟩ := C78_meaning env oracle hv p q h hp d hd
  obtain ⟨us', h1', h2'⟩ := C78_meaning env oracle hv p q h hp d' hd'
  rw [h1] at he; cases he
  rw [h1'] at he'; cases he'
  exact ((kept_path q hn hg).perm_left h2.symm).perm_right h2'.symm

/-- `$..a.*` on `{"a": [1]}` and `{"b": null, "a": [1, 2]}`. -/
example := C78_growth_partial Ex.env Oracle.id Ex.valid _ [⟨.nestMember, [.name (b! "a")]⟩, ⟨.wild, []⟩] ⟨⟨b! "$..a.*", rfl, rfl⟩, by decide⟩ plain_ex
  (by
    intro s hs n hn
    simp only [List.mem_cons, List.not_mem_nil, or_false] at hs
    rcases hs with rfl | rfl <;> simp at hn)
  (.obj [(b! "a", .arr [.int 1])]) (.obj [(b! "b", .null), (b! "a", .arr [.int 1, .int 2])]) (by simp [V.WF, WFm, WFs])
  (by simp [V.WF, WFm, WFs])
  (.obj (ms' := [(b! "a", .arr [.int 1, .int 2])]) (more := [(b! "b", .null)]) rfl
    (.cons (.arr (ys := [.int 1]) (zs := [.int 2]) (.cons (.scalar trivial) .nil)) .nil) (List.Perm.swap _ _ _))
  [.int 1] [.int 1, .int 2] (run_of_runFuel 60 _ (by krfl)) (run_of_runFuel 60 _ (by krfl))

/-- In particular results are never lost: a value that is selected before is selected after, if it has not itself grown. -/
theorem C78_count_partial (hv : oracle.Valid) (p : JSONPath) (q : Path) (h : IsCompiled env p q) (hp : PlainPath q) (hn : NonNegative q)
    (d d' : V) (hd : d.WF) (hd' : d'.WF) (hg : GrowsTo d d') (vs vs' : List V) (he : Eval env oracle p d = some (.ok (some vs)))
    (he' : Eval env oracle p d' = some (.ok (some vs'))) : vs.length ≤ vs'.length ∧ ∀ v ∈ vs, Scalar v → v ∈ vs' := by
  obtain ⟨ws, rest, h1, h2⟩ := C78_growth_partial env oracle hv p q h hp hn d d' hd hd' hg vs vs' he he'
  constructor
  · rw [h1.length_eq, List.length_append, h2.length_eq]; omega
  · intro v hv hs
    refine h1.symm.subset (List.mem_append_left _ ?_)
    clear h1 he
    induction h2 with
    | nil => cases hv
    | cons h _ ih =>
      rcases List.mem_cons.1 hv with rfl | hv
      · cases h <;> first | exact hs.elim | simp
      · exact List.mem_cons_of_mem _ (ih hv)

example := C78_count_partial Ex.env Oracle.id Ex.valid _ [⟨.wild, []⟩] ⟨⟨b! "$.*", rfl, rfl⟩, by decide⟩
  (by intro s hs; simp only [List.mem_cons, List.not_mem_nil, or_false] at hs; subst hs; exact .inl .wild)
  (by intro s hs n hn; simp only [List.mem_cons, List.not_mem_nil, or_false] at hs; subst hs; simp at hn)
  (.arr [.int 1]) (.arr [.int 1, .int 2]) (by simp [V.WF, WFs]) (by simp [V.WF, WFs])
  (.arr (ys := [.int 1]) (zs := [.int 2]) (.cons (.scalar trivial) .nil)) [.int 1] [.int 1, .int 2]
  (run_of_runFuel 40 _ (by krfl)) (run_of_runFuel 40 _ (by krfl))

end JP
