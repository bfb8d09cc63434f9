import Verif.Proof.JoinPath
import Verif.Props.Whole
import Verif.Props.Locate
/-!
C84: paths may be joined as texts, and what follows an address is a path of the value found there.
-/
namespace JP
open Spec

variable (env : Env) (oracle : Oracle)

/-! ### C84 Paths are joined as texts -/

/-- If `a` and `$r` are paths, then so is `ar`, with the steps of both. -/
theorem C84_join (a r : Bytes) (p q : Path) (ha : parsePath env a = .ok p) (hr : parsePath env (c! '$' :: r) = .ok q) :
    parsePath env (a ++ r) = .ok (p ++ q) := parsePath_join ha hr

/-- `$.a ` and `$ [1]`: `$.a  [1]`. -/
example := C84_join Ex.env (b! "$.a ") (b! " [1]") _ _ rfl rfl

/-- Its results are those of `$[*]r` on the list of the results of `a`. -/
theorem C84_results (a r : Bytes) (p q : Path) (ha : parsePath env a = .ok p) (hr : parsePath env (c! '$' :: r) = .ok q) (hn : Path.NoRoot q)
    (hl : (a ++ r).length ≤ 3 * 2 ^ 20) (hl' : r.length + 4 ≤ 3 * 2 ^ 20) (hv : oracle.Valid) (root : V) :
    ∃ pa par pr, Compile env a = .ok pa ∧ Compile env (a ++ r) = .ok par ∧ Compile env (b! "$[*]" ++ r) = .ok pr ∧
      (∀ vs, Eval env oracle pa root = some (.ok (some vs)) →
        ∃ oracle' : Oracle, oracle'.Valid ∧ Eval env oracle par root = Eval env oracle' pr (.arr vs)) ∧
      (∀ e, Eval env oracle pa root = some (.err e) → Eval env oracle par root = some (.err e)) := by
  obtain ⟨pa, h1, c1⟩ := compiled_of_parse ha (by rw [List.length_append] at hl; omega)
  obtain ⟨par, h2, c2⟩ := compiled_of_parse (C84_join env a r p q ha hr) hl
  obtain ⟨pr, h3, c3⟩ := compiled_of_parse (C84_join env (b! "$[*]") r [⟨.wild, []⟩] q rfl hr) (by rw [List.length_append]; simpa [Nat.add_comm] using hl')
  exact ⟨pa, par, pr, h1, h2, h3, fun vs h => C15_compose_eval env oracle hv pa par pr p q hn c1 c2 c3 root vs h,
    (C15_compose env oracle pa par p q c1 c2 root).1⟩

example := C84_results Ex.env Oracle.id (b! "$.a") (b! "[?(@ > 1)]") _ [⟨.filter, [.expr (.inner .gt [.current, .int 1])]⟩] rfl rfl
  (by intro s hs e he; simp at hs; subst hs; simp at he; subst he; rfl) (by decide) (by decide) Oracle.id_valid Ex.doc

/-- After the address of a value, a path without `$` in its expressions gives what it gives with that value as the
document: the same results in the same order, or the same error. -/
theorem C84_below (root : V) (hw : root.WF) (pl : Place) (v : V) (h : At root pl v) (r : Bytes) (q : Path)
    (hr : parsePath env (c! '$' :: r) = .ok q) (hn : Path.NoRoot q) (hl : (address pl ++ r).length ≤ 3 * 2 ^ 20) :
    ∃ p p', Compile env (address pl ++ r) = .ok p ∧ Compile env (c! '$' :: r) = .ok p' ∧ Eval env oracle p root = Eval env oracle p' v := by
  have hi : ∀ i, Key.index i ∈ pl → i < 2 ^ 63 := at_index_lt h hw
  have ha : parsePath env (address pl) = .ok (pl.map keyStep) := by rw [address_eq hi]; exact C30_write_partial env _ (address_tree hi)
  obtain ⟨p, h1, c1⟩ := compiled_of_parse (C84_join env _ r _ q ha hr) hl
  have h0 : 1 ≤ (address pl).length := by unfold address; simp
  obtain ⟨p', h2, c2⟩ := compiled_of_parse hr (by rw [List.length_append] at hl; simp only [List.length_cons]; omega)
  refine ⟨p, p', h1, h2, ?_⟩
  rw [c1.eval, c2.eval]
  congr 1
  obtain ⟨out, h3, h4⟩ := evalSteps_single' (env := env) (oracle := oracle) (root := root) (keys_single hi) (some [root]) 0
    (by intro w hw'; simp [GoSlice.elems] at hw'; subst hw'; exact hw)
  have h5 : out.elems = GoSlice.elems (some [v]) := by
    rw [h4]
    simp only [GoSlice.elems, Option.getD_some, List.flatMap_cons, List.flatMap_nil, List.append_nil]
    exact h.reads.follow hw
  unfold evalPath
  rw [evalSteps_append, h3]
  exact (evalSteps_shift (t := 0) (t' := 0) (fun _ => rfl) (.inl hn) h5 0).stepResult

/-- `$["a"]..*` of the document, and `$..*` of its member `a`. -/
example := C84_below Ex.env Oracle.id Ex.doc Ex.doc_wf [.name (b! "a")] _ (.member (List.mem_cons_self ..) (.here _)) (b! "..*") _ rfl
  (by intro s hs e he; simp at hs; subst hs; simp at he) (by decide +kernel)

/-- Without the condition on `$`. -/
def BelowRule : Prop :=
  ∀ (root : V), root.WF → ∀ (pl : Place) (v : V), At root pl v → ∀ (r : Bytes) (q : Path), parsePath env (c! '$' :: r) = .ok q →
    (address pl ++ r).length ≤ 3 * 2 ^ 20 →
    ∃ p p', Compile env (address pl ++ r) = .ok p ∧ Compile env (c! '$' :: r) = .ok p' ∧ Eval env oracle p root = Eval env oracle p' v

/-- The condition is needed: `$` stands for the whole document.  `$[0][?(@ == $[1])]` selects nothing of `[[1, 2]]`, but
`$[?(@ == $[1])]` selects 2 of `[1, 2]`. -/
theorem C84_root_matters : ¬ BelowRule env Oracle.id := by
  intro h
  obtain ⟨p, p', h1, h2, h3⟩ := h (.arr [.arr [.int 1, .int 2]]) (by simp [V.WF, WFs]) [.index 0] (.arr [.int 1, .int 2]) (.elem rfl (.here _))
    (b! "[?(@ == $[1])]") _ rfl (by decide +kernel)
  obtain ⟨p1, h4, c1⟩ := compiled_of_parse (env := env) (text := b! "$[0][?(@ == $[1])]") rfl (by decide)
  obtain ⟨p2, h5, c2⟩ := compiled_of_parse (env := env) (text := b! "$[?(@ == $[1])]") rfl (by decide)
  rw [show address [.index 0] = b! "$[0]" by decide +kernel] at h1
  have e1 : p = p1 := by
    have := h1.symm.trans h4
    cases this; rfl
  have e2 : p' = p2 := by
    have := h2.symm.trans h5
    cases this; rfl
  subst e1 e2
  rw [c1.eval, c2.eval] at h3
  have l : evalPath env Oracle.id (.arr [.arr [.int 1, .int 2]]) [⟨.select, [.int 0]⟩, ⟨.filter, [.expr (.inner .eq [.current, .inner .index [.root, .int 1]])]⟩] = .ok (some []) := by krfl
  have r : evalPath env Oracle.id (.arr [.int 1, .int 2]) [⟨.filter, [.expr (.inner .eq [.current, .inner .index [.root, .int 1]])]⟩] = .ok (some [.int 2]) := by krfl
  exact absurd ((congrArg (some ·) l.symm).trans (h3.trans (congrArg (some ·) r))) (by simp)

end JP
