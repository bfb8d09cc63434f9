import Verif.Proof.DocOrder
import Verif.Props.Core
import Verif.Props.Locate
import Verif.Proof.KRfl
/-!
In which order the results come: C81.

The programs have fewer than 2^22 orders (part of `IsCompiled`), as all those of texts of at most 3 MB (C87).
-/
namespace JP
open Spec

variable (env : Env) (oracle : Oracle)

/-! ### C81 Results come in document order -/

/-- The full statement: the results of every path are values of the document, in document order. -/
def AlwaysInOrder : Prop :=
  ∀ (oracle : Oracle), oracle.Valid → ∀ (p : JSONPath) (q : Path), IsCompiled env p q → ∀ (root : V), root.WF → ∀ vs,
    Eval env oracle p root = some (.ok (some vs)) →
    ∃ places, Found root places vs ∧
      places.Pairwise fun a b => ¬ ∃ pre i j r s, a = pre ++ .index i :: r ∧ b = pre ++ .index j :: s ∧ j < i

/-- In `[1, 2]`, the 2 is only at position 1. -/
private theorem at_two {pl : Place} (h : At (.arr [.int 1, .int 2]) pl (.int 2)) : pl = [.index 1] := by
  cases h with
  | @elem _ i x p _ hx hp =>
    match i, hx with
    | 0, hx => cases hx; cases hp
    | 1, hx => cases hx; cases hp; rfl

private theorem at_one {pl : Place} (h : At (.arr [.int 1, .int 2]) pl (.int 1)) : pl = [.index 0] := by
  cases h with
  | @elem _ i x p _ hx hp =>
    match i, hx with
    | 0, hx => cases hx; cases hp; rfl
    | 1, hx => cases hx; cases hp

private theorem backward {places : List Place} (hf : Found (.arr [.int 1, .int 2]) places [.int 2, .int 1]) :
    ¬ places.Pairwise fun a b => ¬ ∃ pre i j r s, a = pre ++ .index i :: r ∧ b = pre ++ .index j :: s ∧ j < i := by
  intro h
  cases hf with
  | cons h1 h2 =>
    cases h2 with
    | cons h2 h3 =>
      rw [at_two h1, at_one h2, List.pairwise_cons] at h
      exact h.1 _ (by simp) ⟨[], 1, 0, [], [], rfl, rfl, by decide⟩

/-- It is false of unions: `$[1,0]` of `[1,2]` is `[2,1]`. -/
theorem C81_union_fails : ¬ AlwaysInOrder env := by
  intro h
  obtain ⟨places, hf, hp⟩ := h Oracle.id Oracle.id_valid _ _ (⟨⟨b! "$[1,0]", rfl, rfl⟩, by decide⟩ : IsCompiled env _ _)
    (.arr [.int 1, .int 2]) (by simp [V.WF, WFs]) [.int 2, .int 1] (run_of_runFuel 20 _ (by krfl))
  exact backward hf hp

/-- It is false of slices with a negative stride: `$[::-1]` of `[1,2]` is `[2,1]`. -/
theorem C81_stride_fails : ¬ AlwaysInOrder env := by
  intro h
  obtain ⟨places, hf, hp⟩ := h Oracle.id Oracle.id_valid _ _ (⟨⟨b! "$[::-1]", rfl, rfl⟩, by decide⟩ : IsCompiled env _ _)
    (.arr [.int 1, .int 2]) (by simp [V.WF, WFs]) [.int 2, .int 1] (run_of_runFuel 20 _ (by krfl))
  exact backward hf hp

/-- It is false of descent: `$..*` of `[[1],2]` is `[[1],2,1]`: the 1 comes after the 2, which follows it in the document. -/
theorem C81_descent_fails : ¬ AlwaysInOrder env := by
  intro h
  obtain ⟨places, hf, hp⟩ := h Oracle.id Oracle.id_valid _ _ (⟨⟨b! "$..*", rfl, rfl⟩, by decide⟩ : IsCompiled env _ _)
    (.arr [.arr [.int 1], .int 2]) (by simp [V.WF, WFs]) [.arr [.int 1], .int 2, .int 1] (run_of_runFuel 40 _ (by krfl))
  have one : ∀ pl, At (.arr [.arr [.int 1], .int 2]) pl (.int 1) → pl = [.index 0, .index 0] := by
    intro pl h
    cases h with
    | @elem _ i x p _ hx hp =>
      match i, hx with
      | 0, hx =>
        cases hx
        cases hp with
        | @elem _ i x p _ hx hp =>
          match i, hx with
          | 0, hx => cases hx; cases hp; rfl
      | 1, hx => cases hx; cases hp
  have two : ∀ pl, At (.arr [.arr [.int 1], .int 2]) pl (.int 2) → pl = [.index 1] := by
    intro pl h
    cases h with
    | @elem _ i x p _ hx hp =>
      match i, hx with
      | 0, hx =>
        cases hx
        cases hp with
        | @elem _ i x p _ hx hp =>
          match i, hx with
          | 0, hx => cases hx; cases hp
      | 1, hx => cases hx; cases hp; rfl
  cases hf with
  | cons _ h2 =>
    cases h2 with
    | cons h2 h3 =>
      cases h3 with
      | cons h3 _ =>
        rw [two _ h2, one _ h3, List.pairwise_cons, List.pairwise_cons] at hp
        exact hp.2.1 _ (by simp) ⟨[], 1, 0, [], [.index 0], rfl, rfl, by decide⟩

/-- Paths of names, indices, `*`, computed keys, filters and slices with a stride that is not negative find values
of the document in document order, each as many levels down as the path has steps.  The exception is the null that a
filter makes up when it has nothing to visit; it is then the only result. -/
theorem C81_order_partial (hv : oracle.Valid) (p : JSONPath) (q : Path) (h : IsCompiled env p q) (hq : ∀ s ∈ q, ForwardStep s)
    (root : V) (hr : root.WF) (vs : List V) (he : Eval env oracle p root = some (.ok (some vs))) :
    (∃ places, DocOrder q.length places ∧ Found root places vs) ∨ (q.hasFilter = true ∧ vs = [.null]) := by
  rw [h.eval oracle root] at he
  simp only [Option.some.injEq] at he
  obtain ⟨out, t, ho, rfl⟩ := evalPath_ok_iff.1 he
  rcases evalSteps_order hv hr q (fun s hs => ⟨h.wf s hs, hq s hs⟩) 0 False _ _ _ _ (.inl .self) ho with h | ⟨h1, h2⟩
  · rw [Nat.zero_add] at h
    exact .inl h
  · exact .inr ⟨by rcases h1 with h | h; exact h.elim; exact h, h2⟩

example : ∃ p, IsCompiled Ex.env p [⟨.member, [.name (b! "a")]⟩, ⟨.select, [.slice ⟨none, none, some (.int 2)⟩]⟩] ∧
    (∀ s ∈ ([⟨.member, [.name (b! "a")]⟩, ⟨.select, [.slice ⟨none, none, some (.int 2)⟩]⟩] : Path), ForwardStep s) ∧
    Eval Ex.env Oracle.id p Ex.doc = some (.ok (some [.int 1, .int 3])) := by
  refine ⟨_, ⟨⟨b! "$.a[::2]", rfl, rfl⟩, by decide⟩, ?_, run_of_runFuel 40 _ (by krfl)⟩
  intro s hs
  simp only [List.mem_cons, List.not_mem_nil, or_false] at hs
  rcases hs with rfl | rfl
  · exact ⟨rfl, rfl, by simp⟩
  · refine ⟨rfl, rfl, ?_⟩
    intro a b n h
    simp only [List.mem_cons, List.not_mem_nil, or_false, Val.slice.injEq, Slice.mk.injEq, Option.some.injEq, Bound.int.injEq] at h
    rw [h.2.2]
    decide

/-- Of two results below the same array, the one in the earlier element comes first, wherever in the document the array is. -/
theorem C81_elements_partial (hv : oracle.Valid) (p : JSONPath) (q : Path) (h : IsCompiled env p q) (hq : ∀ s ∈ q, ForwardStep s)
    (hf : q.hasFilter = false) (root : V) (hr : root.WF) (vs : List V) (he : Eval env oracle p root = some (.ok (some vs))) :
    ∃ places, Found root places vs ∧ (∀ pl ∈ places, pl.length = q.length) ∧ places.Nodup ∧
      places.Pairwise fun a b => ¬ ∃ pre i j r s, a = pre ++ .index i :: r ∧ b = pre ++ .index j :: s ∧ j < i := by
  rcases C81_order_partial env oracle hv p q h hq root hr vs he with ⟨places, h1, h2⟩ | ⟨h1, _⟩
  · refine ⟨places, h2, docOrder_length h1, ?_, ?_⟩
    · refine (docOrder_pairwise h1).imp ?_
      rintro a b ⟨pre, x, y, r, s, rfl, rfl, hp⟩ he
      simp only [List.append_cancel_left_eq, List.cons.injEq] at he
      rw [he.1] at hp
      cases hp with
      | index h => exact absurd h (by simp)
      | name h => exact h rfl
    · refine (docOrder_pairwise h1).imp ?_
      rintro a b ⟨pre, x, y, r, s, rfl, rfl, hp⟩ ⟨pre', i, j, r', s', ha, hb, hij⟩
      rcases Nat.lt_trichotomy pre.length pre'.length with hl | hl | hl
      · obtain ⟨m, hm⟩ := Nat.exists_eq_add_of_lt hl
        have ha' := congrArg (·[pre.length]?) ha
        have hb' := congrArg (·[pre.length]?) hb
        simp only [List.getElem?_append_right (Nat.le_refl _), Nat.sub_self, List.getElem?_cons_zero,
          List.getElem?_append_left hl] at ha' hb'
        rw [← hb'] at ha'
        cases ha'
        cases hp with
        | index h => exact absurd h (by simp)
        | name h => exact h rfl
      · obtain ⟨h1, h2⟩ := List.append_inj ha hl
        obtain ⟨h3, h4⟩ := List.append_inj hb hl
        cases h2; cases h4
        cases hp with
        | index h => omega
      · have ha' := congrArg (·[pre'.length]?) ha
        have hb' := congrArg (·[pre'.length]?) hb
        simp only [List.getElem?_append_right (Nat.le_refl _), Nat.sub_self, List.getElem?_cons_zero,
          List.getElem?_append_left hl] at ha' hb'
        rw [ha'] at hb'
        cases hb'
        omega
  · rw [hf] at h1; cases h1

example : ∃ p, IsCompiled Ex.env p [⟨.wild, []⟩, ⟨.wild, []⟩] ∧ (∀ s ∈ ([⟨.wild, []⟩, ⟨.wild, []⟩] : Path), ForwardStep s) ∧
    Path.hasFilter [⟨.wild, []⟩, ⟨.wild, []⟩] = false ∧
    Eval Ex.env Oracle.id p (.arr [.arr [.int 1], .arr [.int 2, .int 3]]) = some (.ok (some [.int 1, .int 2, .int 3])) := by
  refine ⟨_, ⟨⟨b! "$[*][*]", rfl, rfl⟩, by decide⟩, ?_, rfl, run_of_runFuel 40 _ (by krfl)⟩
  intro s hs
  simp only [List.mem_cons, List.not_mem_nil, or_false, or_self] at hs
  rw [hs]
  exact ⟨rfl, rfl, by simp⟩

end JP
