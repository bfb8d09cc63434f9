import Verif.Spec.Apart
import Verif.Proof.Apart
import Verif.Props.Grow
import Verif.Props.Locate
/-!
C83: two paths of names, indices and `*` that are written differently select differently from some document, unless
they differ only in notation.
-/
namespace JP
open Spec

variable (env : Env)

/-! ### C83 Paths are told apart by documents -/

/-- The same results up to order on every document. -/
def SameResults (p p' : JSONPath) : Prop :=
  ∀ (oracle : Oracle), oracle.Valid → ∀ (d : V), d.WF → ∀ vs vs', Eval env oracle p d = some (.ok (some vs)) →
    Eval env oracle p' d = some (.ok (some vs')) → vs.Perm vs'

/-- Two paths have the same results on all documents exactly if their steps are read alike. -/
theorem C83_apart (p p' : JSONPath) (q q' : Path) (h : IsCompiled env p q) (h' : IsCompiled env p' q') (ps ps' : List Pick)
    (hr : All2 ReadsPick q ps) (hr' : All2 ReadsPick q' ps') : SameResults env p p' ↔ ps = ps' := by
  constructor
  · intro hs
    apply Classical.byContradiction
    intro hne
    obtain ⟨d, hd, ht⟩ := tell ps ps' hne (reads_ok hr) (reads_ok hr')
    obtain ⟨vs, h1, h2⟩ := C78_meaning env Oracle.id Oracle.id_valid p q h (reads_plain hr) d hd
    obtain ⟨vs', h1', h2'⟩ := C78_meaning env Oracle.id Oracle.id_valid p' q' h' (reads_plain hr') d hd
    have h3 := (h2.symm.trans (hs Oracle.id Oracle.id_valid d hd vs vs' h1 h1')).trans h2'
    rw [pathOf_picked hr hd, pathOf_picked hr' hd] at h3
    have h4 := h3.length_eq
    rcases ht with ⟨e1, e2⟩ | ⟨e1, e2⟩ <;> rw [e1, e2] at h4 <;> simp at h4
  · rintro rfl oracle hv d hd vs vs' he he'
    obtain ⟨us, h1, h2⟩ := C78_meaning env oracle hv p q h (reads_plain hr) d hd
    obtain ⟨us', h1', h2'⟩ := C78_meaning env oracle hv p' q' h' (reads_plain hr') d hd
    rw [h1] at he; cases he
    rw [h1'] at he'; cases he'
    rw [pathOf_picked hr hd] at h2
    rw [pathOf_picked hr' hd] at h2'
    exact h2.trans h2'.symm

/-- If they are read differently, from some document one of them selects the integer 1 and the other nothing, whatever
the order of map iteration. -/
theorem C83_witness (p p' : JSONPath) (q q' : Path) (h : IsCompiled env p q) (h' : IsCompiled env p' q') (ps ps' : List Pick)
    (hr : All2 ReadsPick q ps) (hr' : All2 ReadsPick q' ps') (hne : ps ≠ ps') :
    ∃ d, d.WF ∧ ∀ (oracle : Oracle), oracle.Valid → ∃ vs vs', Eval env oracle p d = some (.ok (some vs)) ∧
      Eval env oracle p' d = some (.ok (some vs')) ∧ ((vs = [.int 1] ∧ vs' = []) ∨ (vs = [] ∧ vs' = [.int 1])) := by
  obtain ⟨d, hd, ht⟩ := tell ps ps' hne (reads_ok hr) (reads_ok hr')
  refine ⟨d, hd, fun oracle hv => ?_⟩
  obtain ⟨vs, h1, h2⟩ := C78_meaning env oracle hv p q h (reads_plain hr) d hd
  obtain ⟨vs', h1', h2'⟩ := C78_meaning env oracle hv p' q' h' (reads_plain hr') d hd
  refine ⟨vs, vs', h1, h1', ?_⟩
  rw [pathOf_picked hr hd] at h2
  rw [pathOf_picked hr' hd] at h2'
  rcases ht with ⟨e1, e2⟩ | ⟨e1, e2⟩ <;> rw [e1] at h2 <;> rw [e2] at h2'
  · exact .inl ⟨List.perm_singleton.1 h2, List.perm_nil.1 h2'⟩
  · exact .inr ⟨List.perm_nil.1 h2, List.perm_singleton.1 h2'⟩

/-- `$.a[0]` and `$.a['0']`: alike on objects, but not on arrays. -/
example := C83_witness Ex.env _ _ [⟨.member, [.name (b! "a")]⟩, ⟨.select, [.int 0]⟩] [⟨.member, [.name (b! "a")]⟩, ⟨.select, [.str (b! "0")]⟩]
  ⟨⟨b! "$.a[0]", rfl, rfl⟩, by decide⟩ ⟨⟨b! "$.a['0']", rfl, rfl⟩, by decide⟩ [.name (b! "a"), .index 0] [.name (b! "a"), .name (b! "0")]
  (.cons (.dotName _) (.cons (.index 0 (by unfold Reachable; decide)) .nil)) (.cons (.dotName _) (.cons (.quoted _) .nil))
  (by simp)

/-- `$.*.a` and `$[*]['a']`. -/
example : ∀ (p p' : JSONPath), IsCompiled Ex.env p [⟨.wild, []⟩, ⟨.member, [.name (b! "a")]⟩] →
    IsCompiled Ex.env p' [⟨.wild, []⟩, ⟨.select, [.str (b! "a")]⟩] → SameResults Ex.env p p' := fun p p' h h' =>
  (C83_apart Ex.env p p' _ _ h h' [.all, .name (b! "a")] [.all, .name (b! "a")] (.cons .wild (.cons (.dotName _) .nil))
    (.cons .wild (.cons (.quoted _) .nil))).2 rfl

/-- After a dot a negative number is a name. -/
theorem C83_negative (p p' : JSONPath) (n : Int64) (hn : n.toInt < 0) (h : IsCompiled env p [⟨.member, [.int n]⟩])
    (h' : IsCompiled env p' [⟨.select, [.str (intToBytes n.toInt)]⟩]) : SameResults env p p' :=
  (C83_apart env p p' _ _ h h' [.name (intToBytes n.toInt)] _ (.cons (.dotNegative n hn) .nil) (.cons (.quoted _) .nil)).2 rfl

/-- `$.-1` and `$['-1']`. -/
example := C83_negative Ex.env _ _ (-1) (by decide) ⟨⟨b! "$.-1", rfl, rfl⟩, by decide⟩ ⟨⟨b! "$['-1']", rfl, rfl⟩, by decide⟩

/-- Every step of one name, one integer or `*` is read in exactly one way. -/
theorem C83_reads (s : Step) (h : (∃ n, s = ⟨.member, [.name n]⟩) ∨ (∃ n, s = ⟨.member, [.int n]⟩) ∨ (∃ n, s = ⟨.select, [.name n]⟩) ∨
    (∃ n, s = ⟨.select, [.str n]⟩) ∨ (∃ n, s = ⟨.select, [.int n]⟩) ∨ s = ⟨.wild, []⟩) : ∃! x, ReadsPick s x := by
  rcases h with ⟨n, rfl⟩ | ⟨n, rfl⟩ | ⟨n, rfl⟩ | ⟨n, rfl⟩ | ⟨n, rfl⟩ | rfl
  · exact ⟨_, .dotName n, fun y hy => by cases hy; rfl⟩
  · rcases Int.lt_or_le n.toInt 0 with h0 | h0
    · exact ⟨_, .dotNegative n h0, fun y hy => by cases hy <;> first | rfl | omega⟩
    · by_cases hr : Reachable n.toInt
      · exact ⟨_, .dotIndex n h0 hr, fun y hy => by cases hy <;> first | rfl | contradiction | omega⟩
      · exact ⟨_, .dotFar n h0 hr, fun y hy => by cases hy <;> first | rfl | contradiction⟩
  · exact ⟨_, .bare n, fun y hy => by cases hy; rfl⟩
  · exact ⟨_, .quoted n, fun y hy => by cases hy; rfl⟩
  · by_cases hr : Reachable n.toInt
    · exact ⟨_, .index n hr, fun y hy => by cases hy <;> first | rfl | contradiction⟩
    · exact ⟨_, .far n hr, fun y hy => by cases hy <;> first | rfl | contradiction⟩
  · exact ⟨_, .wild, fun y hy => by cases hy; rfl⟩

example := C83_reads ⟨.member, [.int (-1)]⟩ (.inr (.inl ⟨_, rfl⟩))

end JP
