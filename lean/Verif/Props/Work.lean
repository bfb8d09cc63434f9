import Verif.Proof.Work
import Verif.Props.Ways
/-!
The number of orders executed: C70.

The programs have fewer than 2^22 orders (part of `IsCompiled`), as all those of texts of at most 3 MB (C87).
-/
namespace JP
open Spec

variable (env : Env) (oracle : Oracle)

/-! ### C70 The number of orders executed -/

/-- `$` takes none. -/
theorem C70_start (p : JSONPath) (h : IsCompiled env p []) (root : V) : Takes env oracle p root 0 := by
  obtain ⟨⟨t, h1, h2⟩, _⟩ := h
  obtain ⟨path, h3, _, h4, _⟩ := Compile_ok h1
  rw [h2] at h3
  cases h3
  have hp : p.prog = ⟨[], []⟩ := (Res.ok.inj h4).symm
  unfold Takes EndsWithin
  rw [hp]
  exact ⟨nofun, rfl⟩

example := C70_start Ex.env Oracle.id _ ⟨⟨b! "$", rfl, rfl⟩, by decide⟩ Ex.doc

/-- A further step takes as many orders as it has nodes, or, if it is a filter or descends, one more than as many for
each of the values at which it looks; so many altogether if it succeeds, and no more if it does not. -/
theorem C70_step (hv : oracle.Valid) (p p' : JSONPath) (q : Path) (s : Step) (h : IsCompiled env p q)
    (h' : IsCompiled env p' (q ++ [s])) (root : V) (vs : List V) (he : Eval env oracle p root = some (.ok (some vs)))
    (n : Nat) (hn : Takes env oracle p root n) :
    EndsWithin env oracle p' root (n + stepOrders s vs) ∧
      (∀ vs', Eval env oracle p' root = some (.ok (some vs')) → Takes env oracle p' root (n + stepOrders s vs)) := by
  obtain ⟨out, t, h1, hout⟩ : ∃ out t, evalSteps env oracle root q (some [root]) 0 = .ok (out, t) ∧ vs = out.elems := by
    rw [h.eval oracle root] at he
    simp only [Option.some.injEq] at he
    obtain ⟨out, t, ho, h⟩ := evalPath_ok_iff.1 he
    exact ⟨out, t, ho, by simpa using h.symm⟩
  have hq := h.takes he
  have hc : cost env oracle root (q ++ [s]) (some [root]) 0 = n + stepOrders s vs := by
    rw [cost_snoc, h1, hn.unique hq, hout, ← stepCost_eq hv s out t]
    rfl
  rw [← hc]
  exact ⟨h'.within, fun vs' h2 => h'.takes h2⟩

/-- `$.a[?(@>1)]` on a document with three elements in `a`: two orders for `$.a`, and then one and five for each
element. -/
example := C70_step Ex.env Oracle.id Ex.valid _ _ _ _ ⟨⟨b! "$.a", rfl, rfl⟩, by decide⟩
  ⟨⟨b! "$.a[?(@>1)]", rfl, rfl⟩, by decide⟩ Ex.doc [.arr [.int 1, .int 2, .int 3]] (run_of_runFuel 10 _ rfl) 2
  ⟨by unfold EndsWithin; exact nofun, rfl⟩

/-- The whole takes at most as many orders as the program has, times the number of values in the document, times the
numbers of selectors of the unions, times one more than the height of the document for every descent but the first. -/
theorem C70_bound (hv : oracle.Valid) (p : JSONPath) (q : Path) (h : IsCompiled env p q) (root : V) (hr : root.WF) :
    EndsWithin env oracle p root
      (p.prog.orders.length * (count root * (widths q * (height root + 1) ^ (descents q - 1)))) := by
  refine EndsWithin.mono ?_ h.within
  rw [h.size]
  exact h.cost_le hv hr

example := C70_bound Ex.env Oracle.id Ex.valid _ _ ⟨⟨b! "$..*..a[0,1]", rfl, rfl⟩, by decide⟩ Ex.doc Ex.doc_wf

/-- Without unions and with at most one descent, the number of orders is at most that of the program times the number
of values in the document, and so at most 4/3 of the length of the text times that number. -/
theorem C70_linear (hv : oracle.Valid) (text : Bytes) (ht : text.length ≤ 3 * 2 ^ 20) (p : JSONPath) (q : Path)
    (h : Compile env text = .ok p) (hq : parsePath env text = .ok q) (h1 : ∀ s ∈ q, Op.isUnion s.op = false)
    (h2 : descents q ≤ 1) (root : V) (hr : root.WF) :
    EndsWithin env oracle p root (4 * (text.length - 1) / 3 * count root) := by
  have hc : IsCompiled env p q := ⟨⟨text, h, hq⟩, Compile_small h ht⟩
  refine EndsWithin.mono ?_ (C70_bound env oracle hv p q hc root hr)
  obtain ⟨path, h3, _, _, _, h4, _⟩ := Compile_ok h
  have h5 := parsePath_size h3
  rw [hq] at h3
  cases h3
  rw [widths_one h1, show descents q - 1 = 0 by omega, Nat.pow_zero, Nat.mul_one]
  exact Nat.mul_le_mul_right _ (by omega)

example := C70_linear Ex.env Oracle.id Ex.valid (b! "$..a[?(@>1)]") (by decide) _ _ rfl rfl (by decide) (by decide) Ex.doc Ex.doc_wf

end JP
