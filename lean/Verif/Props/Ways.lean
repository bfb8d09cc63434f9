import Verif.Proof.Ways
import Verif.Props.Locate
/-!
How often a value is selected: C68.

The programs have fewer than 2^22 orders (part of `IsCompiled`), as all those of texts of at most 3 MB (C87).
-/
namespace JP
open Spec

variable (env : Env) (oracle : Oracle)

/-! ### C68 How often a value is selected -/

/-- The full statement: every result is found in the document, and none of its places occurs more often among
those of the results than there are ways in which the path can lead to it. -/
def TimesRule : Prop :=
  ∀ (oracle : Oracle), oracle.Valid → ∀ (p : JSONPath) (q : Path), IsCompiled env p q → ∀ (root : V), root.WF →
    ∀ vs, Eval env oracle p root = some (.ok (some vs)) →
    ∃ places, Found root places vs ∧ ∀ pl, places.count pl ≤ ways q pl.length

/-- It is false: `$[?(true)]` of the empty array is `[null]`, and there is no null in the document. -/
theorem C68_times_fails : ¬ TimesRule env := by
  intro h
  obtain ⟨places, hf, _⟩ := h Oracle.id Oracle.id_valid _ _ (⟨⟨b! "$[?(true)]", rfl, rfl⟩, by decide⟩ : IsCompiled env _ _)
    (.arr []) (by simp [V.WF, WFs]) [.null] (run_of_runFuel 10 _ rfl)
  cases hf with
  | cons h _ =>
    cases h with
    | elem h => cases h

/-- Only the null that a filter makes up when it has nothing to visit is the exception, and then it is the
only result. -/
theorem C68_times_partial (hv : oracle.Valid) (p : JSONPath) (q : Path) (h : IsCompiled env p q) (root : V) (hr : root.WF)
    (vs : List V) (he : Eval env oracle p root = some (.ok (some vs))) :
    (∃ places, Found root places vs ∧ ∀ pl, places.count pl ≤ ways q pl.length) ∨ (q.hasFilter = true ∧ vs = [.null]) := by
  rw [h.eval oracle root] at he
  simp only [Option.some.injEq] at he
  obtain ⟨out, t, ho, rfl⟩ := evalPath_ok_iff.1 he
  have h0 : Times root (fun d => if d = 0 then 1 else 0) (GoSlice.elems (some [root])) := by
    refine ⟨[[]], .cons (.here _) .nil, fun pl => ?_⟩
    cases pl <;> simp
  rcases evalSteps_weigh hv hr q _ False _ _ _ _ (.inl h0) ho with h1 | ⟨h1, h2⟩
  · exact .inl h1
  · exact .inr ⟨by rcases h1 with h | h; exact h.elim; exact h, h2⟩

example := C68_times_partial Ex.env Oracle.id Ex.valid _ _ ⟨⟨b! "$..*[0,0]", rfl, rfl⟩, by decide⟩ Ex.doc Ex.doc_wf
  [.int 1, .int 1] (run_of_runFuel 40 _ (by krfl))

/-- `$..*[0,0]` leads in two ways to places two levels down, and in none to the root's children. -/
example : ways [⟨.nestWild, []⟩, ⟨.union, [.int 0, .int 0]⟩] 2 = 2 ∧ ways [⟨.nestWild, []⟩, ⟨.union, [.int 0, .int 0]⟩] 1 = 0 := by
  decide +kernel

/-- Without descent, each result lies as many levels down as the path has steps, and is found there at most as
often as the product of the numbers of selectors of the unions. -/
theorem C68_unions_partial (hv : oracle.Valid) (p : JSONPath) (q : Path) (h : IsCompiled env p q) (hd : descents q = 0) (root : V)
    (hr : root.WF) (vs : List V) (he : Eval env oracle p root = some (.ok (some vs))) :
    (∃ places, Found root places vs ∧ ∀ pl ∈ places, pl.length = q.length ∧ places.count pl ≤ widths q) ∨
      (q.hasFilter = true ∧ vs = [.null]) := by
  rcases C68_times_partial env oracle hv p q h root hr vs he with ⟨places, h1, h2⟩ | h1
  · refine .inl ⟨places, h1, fun pl hpl => ?_⟩
    have h3 := ways_le q
    unfold WaysLe at h3
    rw [if_pos hd] at h3
    have h4 := Nat.le_trans (h2 pl) (h3 _)
    have h5 := List.count_pos_iff.2 hpl
    split at h4
    · next hl => exact ⟨hl, h4⟩
    · omega
  · exact .inr h1

example := C68_unions_partial Ex.env Oracle.id Ex.valid _ _ ⟨⟨b! "$['a','a'][0,0]", rfl, rfl⟩, by decide⟩ rfl Ex.doc Ex.doc_wf
  [.int 1, .int 1, .int 1, .int 1] (run_of_runFuel 40 _ (by krfl))

example : widths [⟨.union, [.str (b! "a"), .str (b! "a")]⟩, ⟨.union, [.int 0, .int 0]⟩] = 4 := rfl

/-- The number of results is at most that of the values in the document, times the numbers of selectors of the
unions, times one more than the height of the document for every descent but the first. -/
theorem C68_count (hv : oracle.Valid) (p : JSONPath) (q : Path) (h : IsCompiled env p q) (root : V) (hr : root.WF)
    (vs : List V) (he : Eval env oracle p root = some (.ok (some vs))) :
    vs.length ≤ count root * (widths q * (height root + 1) ^ (descents q - 1)) := by
  rcases C68_times_partial env oracle hv p q h root hr vs he with ⟨places, h1, h2⟩ | ⟨_, rfl⟩
  · rw [← Spec.All2.length h1, ← allPlaces_length]
    refine length_le_of_count (fun pl hpl => ?_) (fun pl hpl => Nat.le_trans (h2 pl) ?_)
    · obtain ⟨v, _, h⟩ := Spec.All2.mem_left h1 hpl
      exact h.mem
    · obtain ⟨v, _, h⟩ := Spec.All2.mem_left h1 hpl
      have h3 := ways_le q
      unfold WaysLe at h3
      split at h3
      · next hd =>
        refine Nat.le_trans (h3 _) ?_
        rw [hd, Nat.zero_sub, Nat.pow_zero, Nat.mul_one]
        split
        · exact Nat.le_refl _
        · exact Nat.zero_le _
      · exact Nat.le_trans (h3 _) (Nat.mul_le_mul_left _ (Nat.pow_le_pow_left (Nat.succ_le_succ (at_height h)) _))
  · exact Nat.mul_pos (count_pos root) (Nat.mul_pos h.widths_pos (Nat.pow_pos (by omega)))

example := C68_count Ex.env Oracle.id Ex.valid _ _ ⟨⟨b! "$..*..*", rfl, rfl⟩, by decide⟩ Ex.doc Ex.doc_wf
  [.int 1, .int 2, .int 3, .null] (run_of_runFuel 40 _ (by krfl))

/-- The bound is attained: a path of `*` and `..*` selects every place in as many ways as it can. -/
theorem C68_exact (hv : oracle.Valid) (p : JSONPath) (q : Path) (h : IsCompiled env p q) (hq : ∀ s ∈ q, Wild s) (root : V) (hr : root.WF) :
    ∃ vs places, Eval env oracle p root = some (.ok (some vs)) ∧ Found root places vs ∧
      ∀ pl v, At root pl v → places.count pl = ways q pl.length := by
  have h0 : PicksE (fun _ => True) (fun d => if d = 0 then 1 else 0) root (GoSlice.elems (some [root])) := by
    refine ⟨[[]], .cons (.here _) .nil, fun pl _ _ _ => ?_⟩
    cases pl <;> simp
  obtain ⟨out, t, h1, ps, h2, h3⟩ := evalSteps_exact (env := env) hv hr q hq _ _ 0 h0
  exact ⟨out.elems, ps, by rw [h.eval oracle root, evalPath_ok_iff.2 ⟨out, t, h1, rfl⟩], h2, fun pl v hpl => h3 pl v hpl trivial⟩

example := C68_exact Ex.env Oracle.id Ex.valid _ _ ⟨⟨b! "$..*[*]..*", rfl, rfl⟩, by decide⟩
  (by intro s hs; simp at hs; rcases hs with rfl | rfl | rfl <;> simp [Wild]) Ex.doc Ex.doc_wf

/-- `$..*[*]..*` finds what is six levels down four times. -/
example : ways [⟨.nestWild, []⟩, ⟨.wild, []⟩, ⟨.nestWild, []⟩] 6 = 4 := by decide +kernel

end JP
