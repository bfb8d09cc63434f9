import Verif.Proof.RfcSteps
import Verif.Proof.RfcUnique
import Verif.Props.Ex
/-!
C96: the queries of RFC 9535 without filters.
-/
namespace JP
open Spec

variable (env : Env)

/-- The full statement: every text of a query without filters is compiled, and its evaluation gives a nodelist that the RFC allows. -/
def Spec.RfcRule (env : Env) : Prop :=
  ∀ (oracle : Oracle), oracle.Valid → ∀ (q : Rfc.Query) (text : Bytes), q.Valid → Rfc.QueryText q text → text.length ≤ 3 * 2 ^ 20 →
    ∃ p, Compile env text = .ok p ∧ ∀ (root : V), root.WF → ∃ res, Eval env oracle p root = some (.ok (some res)) ∧ Rfc.Gives root q res

/-- The nodelists of a query differ in their order only. -/
theorem C96_nodelists (root : V) (hw : root.WF) (q : Rfc.Query) (l l' : List V) (h : Rfc.Gives root q l) (h' : Rfc.Gives root q l') : l.Perm l' :=
  Rfc.gives_perm hw h h'

/-- A pre-order of a value and its descendants is one of the orders in which the RFC allows them to be visited. -/
theorem C96_walk (v : V) (hw : v.WF) (l : List V) (h : PreOrder v l) :
    ∃ ds, Rfc.Visits v ds ∧ (ds.map Prod.snd).filter isStructure = l := Rfc.preOrder_visits h hw

example := C96_walk Ex.doc Ex.doc_wf _ (walkdown_spec (ord := Oracle.id 0) (Ex.valid 0) Ex.doc [] rfl)

/-- What holds: `*` stands alone in its brackets, no object has a member named by the digits of an index of the query, and slices are
applied to arrays only. -/
theorem C96_query_partial (oracle : Oracle) (hv : oracle.Valid) (q : Rfc.Query) (text : Bytes) (hq : q.Valid) (ht : Rfc.QueryText q text)
    (hl : text.length ≤ 3 * 2 ^ 20) (hlone : ∀ seg ∈ q, seg.Lone) (root : V) (hr : root.WF) (hd : Rfc.NoDigits root q)
    (hs : Rfc.SlicesOnArrays root q) :
    ∃ p res, Compile env text = .ok p ∧ Eval env oracle p root = some (.ok (some res)) ∧ Rfc.Gives root q res := by
  obtain ⟨ss, h1, h2⟩ := Rfc.query_parse (env := env) ht hq hlone
  obtain ⟨p, res, hc, _, he, hg⟩ := Rfc.query_eval hv hr q.length q rfl hq hd hs ss text h1 h2 hl
  exact ⟨p, res, hc, he, hg⟩

/-- So the results are those of the RFC, up to order. -/
theorem C96_results_partial (oracle : Oracle) (hv : oracle.Valid) (q : Rfc.Query) (text : Bytes) (hq : q.Valid) (ht : Rfc.QueryText q text)
    (hl : text.length ≤ 3 * 2 ^ 20) (hlone : ∀ seg ∈ q, seg.Lone) (root : V) (hr : root.WF) (hd : Rfc.NoDigits root q)
    (hs : Rfc.SlicesOnArrays root q) (l : List V) (hg : Rfc.Gives root q l) (p : JSONPath) (hc : Compile env text = .ok p) :
    ∃ res, Eval env oracle p root = some (.ok (some res)) ∧ res.Perm l := by
  obtain ⟨p', res, hc', he, hg'⟩ := C96_query_partial env oracle hv q text hq ht hl hlone root hr hd hs
  rw [hc] at hc'
  cases hc'
  exact ⟨res, he, C96_nodelists root hr q _ _ hg' hg⟩

/-- `$.a[1,-1]..*` -/
example := C96_query_partial Ex.env Oracle.id Ex.valid
  [.child [.name (b! "a")], .child [.index 1, .index (-1)], .descend [.wild]] (b! "$.a[1,-1]..*")
  (by
    intro seg hs
    simp only [List.mem_cons, List.not_mem_nil, or_false] at hs
    rcases hs with rfl | rfl | rfl <;> simp [Rfc.Segment.sels, Rfc.Selector.Valid, Rfc.InRange])
  ⟨[b! ".a", b! "[1,-1]", b! "..*"],
    .cons (.dotName _ ⟨_, [], rfl, .inl (by decide), by simp [All]⟩) (.cons (by have h := Rfc.SegmentText.child [.index 1, .index (-1)]; simpa [bracket, commas, Rfc.selectorText, writeInt, writeNat] using h) (.cons .dotsWild .nil)), rfl⟩
  (by decide)
  (by
    intro seg hs
    simp only [List.mem_cons, List.not_mem_nil, or_false] at hs
    rcases hs with rfl | rfl | rfl <;> simp [Rfc.Segment.Lone, Rfc.Segment.sels])

/-- `$["a"][1:]` of `{"a": [1, 2, 3]}`: the slice is applied to an array only. -/
example : Rfc.SlicesOnArrays (.obj [(b! "a", .arr [.int 1, .int 2, .int 3])]) [.child [.name (b! "a")], .child [.slice (some 1) none none]] := by
  intro q1 seg q2 he hsl vs hg v hv
  have hgives : Rfc.Gives (.obj [(b! "a", .arr [.int 1, .int 2, .int 3])]) [.child [.name (b! "a")]] [.arr [.int 1, .int 2, .int 3]] :=
    .segment (q := []) .root (.cons (.child ⟨[[_]], .cons (.member (by simp)) .nil, rfl⟩) .nil)
  match q1, he with
  | [], he =>
    simp only [List.nil_append, List.cons.injEq] at he
    obtain ⟨a, b, c, h⟩ := hsl
    rw [← he.1] at h
    simp [Rfc.Segment.sels] at h
  | [s1], he =>
    simp only [List.cons_append, List.nil_append, List.cons.injEq] at he
    obtain ⟨rfl, rfl, _⟩ := he
    have := Rfc.gives_perm (by simp [V.WF, WFm, WFs]) hg hgives
    have := this.mem_iff.1 hv
    rw [List.mem_singleton.1 this]
    exact ⟨_, rfl, by decide⟩
  | _ :: _ :: _, he => simp at he

/-- It is false: `*` is not accepted beside another selector, as in `$[*,0]`. -/
theorem C96_fails_wild : ¬ RfcRule env := by
  intro h
  obtain ⟨p, hc, _⟩ := h Oracle.id (fun _ _ _ => List.Perm.refl _) [.child [.wild, .index 0]] (b! "$[*,0]")
    (by intro seg hs; rw [List.mem_singleton.1 hs]; simp [Rfc.Segment.sels, Rfc.Selector.Valid, Rfc.InRange])
    ⟨[b! "[*,0]"], .cons (by have h := Rfc.SegmentText.child [.wild, .index 0]; simpa [bracket, commas, Rfc.selectorText, writeInt, writeNat] using h) .nil, rfl⟩ (by decide)
  have : ∃ e, Compile env (b! "$[*,0]") = .err e := ⟨_, rfl⟩
  obtain ⟨e, he⟩ := this
  rw [hc] at he
  cases he

/-- Nor does it hold for the queries that are accepted: `$[0]` selects a member of `{"0": true}`, which by the RFC it must not. -/
theorem C96_fails_index : ∃ p, Compile env (b! "$[0]") = .ok p ∧ ∀ oracle,
    Eval env oracle p (.obj [(b! "0", .bool true)]) = some (.ok (some [.bool true])) ∧
    ∀ l, Rfc.Gives (.obj [(b! "0", .bool true)]) [.child [.index 0]] l → l = [] := by
  refine ⟨_, rfl, fun oracle => ⟨run_of_runFuel 10 _ rfl, fun l hl => ?_⟩⟩
  have : Rfc.Gives (.obj [(b! "0", .bool true)]) [.child [.index 0]] [] :=
    .segment (q := []) .root (.cons (.child ⟨[[]], .cons (.noArray (fun xs h => by cases h)) .nil, rfl⟩) .nil)
  exact (C96_nodelists _ (by simp [V.WF, WFm]) _ _ _ hl this).eq_nil

/-- And `$[*][0:1]` of `[[true], null]` selects nothing, where by the RFC it selects `true`. -/
theorem C96_fails_slice : ∃ p, Compile env (b! "$[*][0:1]") = .ok p ∧ ∀ oracle,
    Eval env oracle p (.arr [.arr [.bool true], .null]) = some (.ok (some [])) ∧
    ∀ l, Rfc.Gives (.arr [.arr [.bool true], .null]) [.child [.wild], .child [.slice (some 0) (some 1) none]] l → l = [.bool true] := by
  refine ⟨_, rfl, fun oracle => ⟨run_of_runFuel 10 _ rfl, fun l hl => ?_⟩⟩
  have : Rfc.Gives (.arr [.arr [.bool true], .null]) [.child [.wild], .child [.slice (some 0) (some 1) none]] [.bool true] := by
    refine .segment (q := [.child [.wild]]) (vs := [.arr [.bool true], .null]) (ls := [[.bool true], []]) ?_ ?_
    · exact .segment (q := []) .root (.cons (.child ⟨[_], .cons (.wild (.arr _)) .nil, rfl⟩) .nil)
    · refine .cons (.child ⟨[_], .cons (Rfc.selects_slice (some 0) (some 1) none _) .nil, rfl⟩) (.cons (.child ⟨[_], .cons (.noSlice nofun) .nil, rfl⟩) .nil)
  exact List.perm_singleton.1 (C96_nodelists _ (by simp [V.WF, WFs]) _ _ _ hl this)

end JP
