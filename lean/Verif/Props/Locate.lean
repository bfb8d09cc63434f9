import Verif.Proof.Locate
import Verif.Props.Core
import Verif.Proof.KRfl
import Verif.Props.Grammar
/-!
Where the results are: C58 and C59.

The programs have fewer than 2^22 orders (part of `IsCompiled`), as all those of texts of at most 3 MB (C87).
-/
namespace JP
open Spec

variable (env : Env) (oracle : Oracle)

/-! ### C58 Nothing is selected twice -/

/-- The full statement: a path without unions that descends at most once finds every value at a place of
its own. -/
def EachOnce : Prop :=
  ∀ (oracle : Oracle), oracle.Valid → ∀ (p : JSONPath) (q : Path), IsCompiled env p q → (∀ s ∈ q, Op.isUnion s.op = false) →
    descents q ≤ 1 → ∀ (root : V), root.WF → ∀ vs, Eval env oracle p root = some (.ok (some vs)) →
    ∃ places, places.Nodup ∧ Found root places vs

theorem Oracle.id_valid : Oracle.id.Valid := fun _ _ _ => List.Perm.refl _

/-- It is false: `$[?(true)]` of the empty array is `[null]`, and there is no null in the document. -/
theorem C58_each_once_fails : ¬ EachOnce env := by
  intro h
  obtain ⟨places, _, hf⟩ := h Oracle.id Oracle.id_valid _ _ (⟨⟨b! "$[?(true)]", rfl, rfl⟩, by decide⟩ : IsCompiled env _ _) (by decide)
    (by decide) (.arr []) (by simp [V.WF, WFs]) [.null] (run_of_runFuel 10 _ rfl)
  cases hf with
  | cons h _ =>
    cases h with
    | elem h => cases h

/-- Only the null that a filter makes up when it has nothing to visit is the exception, and then it is the
only result.  Without descent, every result lies as many levels down as the path has steps. -/
theorem C58_each_once_partial (hv : oracle.Valid) (p : JSONPath) (q : Path) (h : IsCompiled env p q)
    (hu : ∀ s ∈ q, Op.isUnion s.op = false) (hd : descents q ≤ 1) (root : V) (hr : root.WF) (vs : List V)
    (he : Eval env oracle p root = some (.ok (some vs))) :
    (∃ places, places.Nodup ∧ Found root places vs ∧ (descents q = 0 → ∀ pl ∈ places, pl.length = q.length)) ∨
      (q.hasFilter = true ∧ vs = [.null]) := by
  rw [h.eval oracle root] at he
  simp only [Option.some.injEq] at he
  obtain ⟨out, t, ho, rfl⟩ := evalPath_ok_iff.1 he
  have h0 : Once root false 0 (GoSlice.elems (some [root])) :=
    ⟨[[]], by simp, .cons (.here _) .nil, by simp⟩
  rcases evalSteps_once hv hr q hu false 0 (by simpa using hd) False _ _ _ _ (.inl h0) ho with ⟨d, h1, ps, h2, h3, h4⟩ | ⟨h1, h2⟩
  · refine .inl ⟨ps, h2, h3, ?_⟩
    intro hd0 pl hpl
    have := h4 (by cases d; rfl; rcases h1 rfl with h | h; cases h; omega) pl hpl
    omega
  · exact .inr ⟨by rcases h1 with h | h; exact h.elim; exact h, h2⟩

example : ∃ p q, IsCompiled Ex.env p q ∧ (∀ s ∈ q, Op.isUnion s.op = false) ∧ descents q = 1 ∧
    Eval Ex.env Oracle.id p Ex.doc = some (.ok (some [.int 1, .int 2, .int 3])) :=
  ⟨_, _, ⟨⟨b! "$..a[*]", rfl, rfl⟩, by decide⟩, by decide, rfl, run_of_runFuel 40 _ (by krfl)⟩

/-- Unions must be excluded: `$[0,0]` selects the first element twice. -/
theorem C58_union : ∃ (p : JSONPath) (q : Path) (root : V), IsCompiled env p q ∧ descents q = 0 ∧ q.hasFilter = false ∧ root.WF ∧
    ∃ vs, Eval env oracle p root = some (.ok (some vs)) ∧ ¬ ∃ places, places.Nodup ∧ Found root places vs := by
  refine ⟨_, _, .arr [.null], ⟨⟨b! "$[0,0]", rfl, rfl⟩, by decide⟩, rfl, rfl, by simp [V.WF, WFs], [.null, .null],
    run_of_runFuel 10 _ rfl, ?_⟩
  have one : ∀ pl, At (.arr [.null]) pl .null → pl = [.index 0] := by
    intro pl h
    cases h with
    | @elem _ i x p _ hx hp =>
      match i, hx with
      | 0, hx => cases hx; cases hp; rfl
  rintro ⟨places, hn, hf⟩
  cases hf with
  | cons h1 h2 =>
    cases h2 with
    | cons h2 _ =>
      rw [one _ h1, one _ h2] at hn
      simp at hn

/-- A second descent must be excluded: `$..*..*` selects what is three levels down twice. -/
theorem C58_descent : ∃ (p : JSONPath) (q : Path) (root : V), IsCompiled env p q ∧ descents q = 2 ∧
    (∀ s ∈ q, Op.isUnion s.op = false) ∧ q.hasFilter = false ∧ root.WF ∧
    ∃ vs, Eval env Oracle.id p root = some (.ok (some vs)) ∧ ¬ ∃ places, places.Nodup ∧ Found root places vs := by
  refine ⟨_, _, .arr [.arr [.arr [.null]]], ⟨⟨b! "$..*..*", rfl, rfl⟩, by decide⟩, rfl, by decide, rfl, by simp [V.WF, WFs],
    [.arr [.null], .null, .null], run_of_runFuel 40 _ (by krfl), ?_⟩
  have one : ∀ pl, At (.arr [.arr [.arr [.null]]]) pl .null → pl = [.index 0, .index 0, .index 0] := by
    intro pl h
    cases h with
    | @elem _ i x p _ hx hp =>
      match i, hx with
      | 0, hx =>
        cases hx
        cases hp with
        | @elem _ i x p _ hx hp =>
          match i, hx with
          | 0, hx =>
            cases hx
            cases hp with
            | @elem _ i x p _ hx hp =>
              match i, hx with
              | 0, hx => cases hx; cases hp; rfl
  rintro ⟨places, hn, hf⟩
  cases hf with
  | cons _ h =>
    cases h with
    | cons h1 h2 =>
      cases h2 with
      | cons h2 _ =>
        rw [one _ h1, one _ h2] at hn
        simp at hn

/-- There are never more results than values in the document. -/
theorem C58_count (hv : oracle.Valid) (p : JSONPath) (q : Path) (h : IsCompiled env p q)
    (hu : ∀ s ∈ q, Op.isUnion s.op = false) (hd : descents q ≤ 1) (root : V) (hr : root.WF) (vs : List V)
    (he : Eval env oracle p root = some (.ok (some vs))) : vs.length ≤ count root := by
  rcases C58_each_once_partial env oracle hv p q h hu hd root hr vs he with ⟨places, hn, hf, _⟩ | ⟨_, rfl⟩
  · rw [← Spec.All2.length hf]
    exact places_le_count hn (fun pl hpl => by
      obtain ⟨v, _, h⟩ := Spec.All2.mem_left hf hpl
      exact ⟨v, h⟩)
  · exact count_pos root

example : count Ex.doc = 7 := by decide +kernel

/-! ### C59 Every value has an address -/

/-- A path of names and indices follows them one after the other, and finds at most one value. -/
theorem C59_single (p : JSONPath) (q : Path) (fs : List (V → List V)) (h : IsCompiled env p q) (hq : All2 Single q fs) (root : V)
    (hr : root.WF) : Eval env oracle p root = some (.ok (some (follow fs root))) ∧ (follow fs root).length ≤ 1 := by
  refine ⟨?_, follow_le_one hq root hr⟩
  rw [h.eval oracle root]
  congr 1
  rw [evalPath_ok_iff]
  obtain ⟨out, t, h1, h2⟩ := evalSteps_single (env := env) (oracle := oracle) (root := root) hq (some [root]) 0
    (by intro v hv; simp [GoSlice.elems] at hv; subst hv; exact hr)
  exact ⟨out, t, h1, by rw [h2]; simp [GoSlice.elems]⟩

example : ∃ p q, IsCompiled Ex.env p q ∧ All2 Single q [memberOf (b! "a"), indexOf true (-1)] ∧
    follow [memberOf (b! "a"), indexOf true (-1)] Ex.doc = [.int 3] :=
  ⟨_, _, ⟨⟨b! "$.a[-1]", rfl, rfl⟩, by decide⟩, .cons (.dotName _) (.cons (.index (-1)) .nil), rfl⟩

/-- The address of a place is a path, and evaluating it gives exactly the value at that place.  The place
may go through members of any name, empty or not, with any bytes in it. -/
theorem C59_address (root : V) (hr : root.WF) (pl : Place) (v : V) (h : At root pl v) (ht : (address pl).length ≤ 3 * 2 ^ 20) :
    ∃ p, Compile env (address pl) = .ok p ∧ Eval env oracle p root = some (.ok (some [v])) := by
  have hi : ∀ i, Key.index i ∈ pl → i < 2 ^ 63 := at_index_lt h hr
  obtain ⟨p, hp, hc⟩ := compiled_of_parse (by rw [address_eq hi]; exact C30_write_partial env _ (address_tree hi)) ht
  refine ⟨p, hp, ?_⟩
  rw [(C59_single env oracle p _ _ hc (keys_single hi) root hr).1, h.reads.follow hr]

example : At Ex.doc [.name (b! "a"), .index 2] (.int 3) ∧ address [.name (b! "a"), .index 2] = b! "$[\"a\"][2]" :=
  ⟨.member (List.mem_cons_self ..) (.elem rfl (.here _)), by decide +kernel⟩

/-- Evaluating the address of any place gives the value read there, or nothing if there is none. -/
theorem C59_reads (root : V) (hr : root.WF) (pl : Place) (hi : ∀ i, Key.index i ∈ pl → i < 2 ^ 63)
    (ht : (address pl).length ≤ 3 * 2 ^ 20) :
    ∃ p, Compile env (address pl) = .ok p ∧
      ((∃ v, ReadAt root pl v ∧ Eval env oracle p root = some (.ok (some [v]))) ∨
       ((∀ v, ¬ ReadAt root pl v) ∧ Eval env oracle p root = some (.ok (some [])))) := by
  obtain ⟨p, hp, hc⟩ := compiled_of_parse (by rw [address_eq hi]; exact C30_write_partial env _ (address_tree hi)) ht
  obtain ⟨h1, h2⟩ := C59_single env oracle p _ _ hc (keys_single hi) root hr
  refine ⟨p, hp, ?_⟩
  rw [h1]
  have h3 : ∀ v ∈ follow (pl.map keySel) root, ReadAt root pl v := fun v hv => reads_of_follow hv
  have h4 : ∀ v, ReadAt root pl v → follow (pl.map keySel) root = [v] := fun v h => h.follow hr
  generalize follow (pl.map keySel) root = l at h2 h3 h4
  match l, h2 with
  | [], _ => exact .inr ⟨fun v h => (by cases h4 v h), rfl⟩
  | [v], _ => exact .inl ⟨v, h3 v (by simp), rfl⟩

example : ReadAt (.obj [(b! "7", .null)]) [.index 7] .null ∧ (∀ i, Key.index i ∈ [Key.index 7] → i < 2 ^ 63) ∧
    (∀ v, ¬ ReadAt (.arr []) [.index 7] v) :=
  ⟨.digits (integerText_intToBytes 7) (List.mem_cons_self ..) (.here _), by simp, by intro v h; cases h with | elem h => cases h⟩

end JP
