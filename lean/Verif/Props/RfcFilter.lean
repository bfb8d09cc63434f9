import Verif.Proof.RfcFilter
import Verif.Props.Ex
/-!
C97: the queries of RFC 9535 with filters.
-/
namespace JP
open Spec

variable (env : Env)

/-- The full statement: every text of a query with filters is compiled, and its evaluation gives a nodelist that the RFC allows. -/
def Spec.RfcFilterRule (env : Env) : Prop :=
  ∀ (oracle : Oracle), oracle.Valid → ∀ (q : List Rfc.Part) (text : Bytes), (∀ part ∈ q, part.Valid) → Rfc.PartsText q text →
    text.length ≤ 3 * 2 ^ 20 →
    ∃ p, Compile env text = .ok p ∧ ∀ (root : V), root.WF → ∃ res, Eval env oracle p root = some (.ok (some res)) ∧ Rfc.Finds root q res

/-- The nodelists of a query differ in their order only. -/
theorem C97_nodelists (root : V) (hw : root.WF) (q : List Rfc.Part) (l l' : List V) (h : Rfc.Finds root q l) (h' : Rfc.Finds root q l') :
    l.Perm l' := Rfc.finds_perm hw h h'

/-- What holds: the parts are evaluated as in the RFC where they are applied. That is, for filters: they are not those of descendant segments;
what is tested for existence, if it exists, is true as a value; comparisons are of values of the same kinds, or of different kinds for which both
say that they are not equal; and a filter for which there are no children would not hold of null. -/
theorem C97_query_partial (oracle : Oracle) (hv : oracle.Valid) (q : List Rfc.Part) (text : Bytes) (hq : ∀ part ∈ q, part.Valid)
    (ht : Rfc.PartsText q text) (hl : text.length ≤ 3 * 2 ^ 20) (hd : ∀ e, Rfc.Part.descend e ∉ q)
    (hlone : ∀ seg, Rfc.Part.plain seg ∈ q → seg.Lone) (root : V) (hr : root.WF) (hu : Rfc.PartsUsual env root q) :
    ∃ p res, Compile env text = .ok p ∧ Eval env oracle p root = some (.ok (some res)) ∧ Rfc.Finds root q res := by
  obtain ⟨ss, h1, h2⟩ := Rfc.parts_parse (env := env) ht hq hd hlone
  obtain ⟨p, res, hc, _, he, hg⟩ := Rfc.parts_eval hv hr q.length q rfl hq hu ss text h1 h2 hl
  exact ⟨p, res, hc, he, hg⟩

/-- So the results are those of the RFC, up to order. -/
theorem C97_results_partial (oracle : Oracle) (hv : oracle.Valid) (q : List Rfc.Part) (text : Bytes) (hq : ∀ part ∈ q, part.Valid)
    (ht : Rfc.PartsText q text) (hl : text.length ≤ 3 * 2 ^ 20) (hd : ∀ e, Rfc.Part.descend e ∉ q)
    (hlone : ∀ seg, Rfc.Part.plain seg ∈ q → seg.Lone) (root : V) (hr : root.WF) (hu : Rfc.PartsUsual env root q)
    (l : List V) (hg : Rfc.Finds root q l) (p : JSONPath) (hc : Compile env text = .ok p) :
    ∃ res, Eval env oracle p root = some (.ok (some res)) ∧ res.Perm l := by
  obtain ⟨p', res, hc', he, hg'⟩ := C97_query_partial env oracle hv q text hq ht hl hd hlone root hr hu
  rw [hc] at hc'
  cases hc'
  exact ⟨res, he, C97_nodelists root hr q _ _ hg' hg⟩

/-- The filter `@.a == 1`. -/
private def isOne : Rfc.Logical := .compare .eq (.query ⟨false, [.dot (b! "a")]⟩) (.lit (.int 1))

/-- `[{"a": 1}, {"a": 2}, {}]` -/
private def ones : V := .arr [.obj [(b! "a", .int 1)], .obj [(b! "a", .int 2)], .obj []]

private theorem ones_usual : Rfc.PartsUsual env ones [.child isOne] := by
  have hw : ones.WF := by simp [ones, V.WF, WFs, WFm]
  intro q1 part q2 he vs hf
  cases q1 with
  | cons _ q1 => cases q1 <;> cases he
  | nil =>
    cases he
    have := List.perm_singleton.1 (Rfc.finds_perm hw hf .root)
    subst this
    refine ⟨fun v hv cs hc c hm => ?_, fun _ h => ?_⟩
    · rw [List.mem_singleton.1 hv] at hc
      cases hc with
      | other _ h => cases h
      | arr =>
        have hval : ∀ o, Rfc.Singular.Value ones c ⟨false, [.dot (b! "a")]⟩ o → o = none ∨ o = some (.int 1) ∨ o = some (.int 2) := by
          intro o ho
          simp only [List.mem_cons, List.not_mem_nil, or_false] at hm
          rcases hm with rfl | rfl | rfl
          · exact .inr (.inl (Rfc.value_unique hw (by simp [V.WF, WFm]) ho
              (Rfc.value_snoc (r := false) (l := []) (o := some (.int 1)) (s := .dot (b! "a")) .root (.member (List.mem_singleton.2 rfl)))))
          · exact .inr (.inr (Rfc.value_unique hw (by simp [V.WF, WFm]) ho
              (Rfc.value_snoc (r := false) (l := []) (o := some (.int 2)) (s := .dot (b! "a")) .root (.member (List.mem_singleton.2 rfl)))))
          · exact .inl (Rfc.value_unique hw (by simp [V.WF, WFm]) ho
              (Rfc.value_snoc (r := false) (l := []) (o := none) (s := .dot (b! "a")) .root (.noMember (kvs := []) (by simp))))
        refine ⟨?_, trivial, ?_⟩
        · intro l1 s l2 he v _
          cases l1 with
          | cons _ l1 => cases l1 <;> cases he
          | nil => cases he; show b! "a" ≠ b! "length"; decide
        · intro x y hx hy
          cases hy
          cases hx with
          | query hx =>
            have num : ∀ i : Int64, Rfc.CompOp.UsualO env .eq (some (.int i)) (some (.int 1)) := fun i =>
              .both (.eq (.inl (.number _ _ _ _ (.int _) (.int _) (.inl ⟨trivial, trivial⟩))))
            rcases hval x hx with rfl | rfl | rfl
            · exact .left (by simp [Rfc.Lit.value])
            · exact num 1
            · exact num 2
    · have := h ones (by simp)
      generalize hl : ([] : List V) = l at this
      cases this with
      | arr => cases hl
      | other _ h => cases h

/-- `$[?(@.a == 1)]` -/
example := C97_query_partial Ex.env Oracle.id Ex.valid [.child isOne] (b! "$[?(@.a == 1)]")
  (by
    intro part hp
    rw [List.mem_singleton.1 hp]
    refine ⟨?_, by simp [Rfc.Operand.Valid, Rfc.InRange]⟩
    intro s hs
    rw [List.mem_singleton.1 hs]
    exact ⟨_, [], rfl, .inl (by decide), by simp [All]⟩)
  ⟨[b! "[?(@.a == 1)]"], .cons (by
    have h := Rfc.PartText.child isOne
    simpa [isOne, Rfc.logicalText, Rfc.operandText, Rfc.singularText, Rfc.singleText, Rfc.opText, Rfc.litText, paren, writeInt, writeNat] using h) .nil, rfl⟩
  (by decide) (by simp) (by simp) ones (by simp [ones, V.WF, WFs, WFm]) (ones_usual Ex.env)

/-- What one filter finds in an array. -/
private theorem found {xs : List V} {e : Rfc.Logical} {l : List V} (h : Rfc.Finds (.arr xs) [.child e] l) :
    Keeps (fun c b => b = true ↔ e.Holds (.arr xs) c) xs l := by
  generalize hq : [Rfc.Part.child e] = q at h
  cases h with
  | root => cases hq
  | @part q' part vs ls h1 h2 =>
    cases q' with
    | cons _ q' => cases q' <;> cases hq
    | nil =>
      cases hq
      generalize hq : ([] : List Rfc.Part) = q at h1
      cases h1 with
      | part => exact absurd hq (by simp)
      | root =>
        cases h2 with
        | cons h h2 =>
          cases h2
          rw [List.flatten_cons, List.flatten_nil, List.append_nil]
          cases h with
          | child h =>
            obtain ⟨cs, h3, h4⟩ := h
            cases h3 with
            | arr => exact h4
            | other _ h => cases h

private theorem found_held {c : V} {e : Rfc.Logical} {l : List V} (he : e.Holds (.arr [c]) c) (h : Rfc.Finds (.arr [c]) [.child e] l) : l = [c] := by
  rcases found h with _ | ⟨_, h'⟩ | ⟨h', _⟩
  · cases h'; rfl
  · exact absurd (h'.2 he) (by simp)

private theorem found_not {c : V} {e : Rfc.Logical} {l : List V} (he : ¬ e.Holds (.arr [c]) c) (h : Rfc.Finds (.arr [c]) [.child e] l) : l = [] := by
  rcases found h with _ | ⟨h', _⟩ | ⟨_, h'⟩
  · exact absurd (h'.1 rfl) he
  · cases h'; rfl

private theorem compare_iff {root dot : V} (hr : root.WF) (hd : dot.WF) {op : Rfc.CompOp} {a b : Rfc.Operand} {x y : Option V}
    (ha : a.Value root dot x) (hb : b.Value root dot y) : (Rfc.Logical.compare op a b).Holds root dot ↔ op.Holds x y := by
  refine ⟨?_, fun h => ⟨x, y, ha, hb, h⟩⟩
  rintro ⟨x', y', ha', hb', h⟩
  rw [Rfc.operand_unique hr hd ha ha', Rfc.operand_unique hr hd hb hb']
  exact h

/-- `@`, and its value. -/
private theorem self_value {root dot : V} : Rfc.Operand.Value root dot (.query ⟨false, []⟩) (some dot) := .query .root

/-- It is false: `$[?(@.a)]` of `[{"a": null}]` selects nothing, where by the RFC it selects the object, in which the member exists. -/
theorem C97_fails_exists : ∃ p, Compile env (b! "$[?(@.a)]") = .ok p ∧ ∀ oracle,
    Eval env oracle p (.arr [.obj [(b! "a", .null)]]) = some (.ok (some [])) ∧
    ∀ l, Rfc.Finds (.arr [.obj [(b! "a", .null)]]) [.child (.test ⟨false, [.dot (b! "a")]⟩)] l → l = [.obj [(b! "a", .null)]] := by
  refine ⟨_, rfl, fun oracle => ⟨run_of_runFuel 30 _ rfl, fun l hl => ?_⟩⟩
  refine found_held ?_ hl
  show ∃ v, _
  exact ⟨.null, Rfc.value_snoc (l := []) .root (.member (by simp))⟩

/-- So the full statement is. -/
theorem C97_fails : ¬ RfcFilterRule env := by
  intro h
  obtain ⟨p, hc, hev⟩ := h Oracle.id (fun _ _ _ => List.Perm.refl _) [.child (.test ⟨false, [.dot (b! "a")]⟩)] (b! "$[?(@.a)]")
    (by
      intro part hp
      rw [List.mem_singleton.1 hp]
      intro s hs
      rw [List.mem_singleton.1 hs]
      exact ⟨_, [], rfl, .inl (by decide), by simp [All]⟩)
    ⟨[b! "[?(@.a)]"], .cons (.child _) .nil, rfl⟩ (by decide)
  obtain ⟨p', hc', hf⟩ := C97_fails_exists env
  rw [hc] at hc'
  cases hc'
  obtain ⟨res, he, hfi⟩ := hev (.arr [.obj [(b! "a", .null)]]) (by simp [V.WF, WFs, WFm])
  have h1 := (hf Oracle.id).2 _ hfi
  rw [(hf Oracle.id).1] at he
  subst h1
  cases he

/-- `$[?(@.a == null)]` of `[{}]` selects the object, where by the RFC it selects nothing, as nothing is not null. -/
theorem C97_fails_null : ∃ p, Compile env (b! "$[?(@.a == null)]") = .ok p ∧ ∀ oracle,
    Eval env oracle p (.arr [.obj []]) = some (.ok (some [.obj []])) ∧
    ∀ l, Rfc.Finds (.arr [.obj []]) [.child (.compare .eq (.query ⟨false, [.dot (b! "a")]⟩) (.lit .null))] l → l = [] := by
  refine ⟨_, rfl, fun oracle => ⟨run_of_runFuel 30 _ (by krfl), fun l hl => ?_⟩⟩
  refine found_not ?_ hl
  have hq : Rfc.Operand.Value (.arr [.obj []]) (.obj []) (.query ⟨false, [.dot (b! "a")]⟩) none :=
    .query (Rfc.value_snoc (r := false) (l := []) (o := none) .root (.noMember (kvs := []) (by simp)))
  rw [compare_iff (by simp [V.WF, WFs, WFm]) (by simp [V.WF, WFm]) hq (.lit _)]
  nofun

/-- `$[?(@ == 1)]` of `[true]` selects `true`, where by the RFC it selects nothing, as the types differ. -/
theorem C97_fails_mixed : ∃ p, Compile env (b! "$[?(@ == 1)]") = .ok p ∧ ∀ oracle,
    Eval env oracle p (.arr [.bool true]) = some (.ok (some [.bool true])) ∧
    ∀ l, Rfc.Finds (.arr [.bool true]) [.child (.compare .eq (.query ⟨false, []⟩) (.lit (.int 1)))] l → l = [] := by
  refine ⟨_, rfl, fun oracle => ⟨run_of_runFuel 30 _ (by krfl), fun l hl => ?_⟩⟩
  refine found_not ?_ hl
  rw [compare_iff (by simp [V.WF, WFs]) (by simp [V.WF]) self_value (.lit _)]
  rintro (_ | h)
  cases h with
  | number _ _ _ h => cases h

/-- `$[?(@ < 2)]` of `[true]` selects `true`, where by the RFC it selects nothing. -/
theorem C97_fails_less : ∃ p, Compile env (b! "$[?(@ < 2)]") = .ok p ∧ ∀ oracle,
    Eval env oracle p (.arr [.bool true]) = some (.ok (some [.bool true])) ∧
    ∀ l, Rfc.Finds (.arr [.bool true]) [.child (.compare .lt (.query ⟨false, []⟩) (.lit (.int 2)))] l → l = [] := by
  refine ⟨_, rfl, fun oracle => ⟨run_of_runFuel 30 _ (by krfl), fun l hl => ?_⟩⟩
  refine found_not ?_ hl
  rw [compare_iff (by simp [V.WF, WFs]) (by simp [V.WF]) self_value (.lit _)]
  rintro ⟨h⟩
  cases h with
  | number h => cases h

/-- `$[?(@ <= null)]` of `[null]` selects nothing, where by the RFC it selects the null, which equals null. -/
theorem C97_fails_order : ∃ p, Compile env (b! "$[?(@ <= null)]") = .ok p ∧ ∀ oracle,
    Eval env oracle p (.arr [.null]) = some (.ok (some [])) ∧
    ∀ l, Rfc.Finds (.arr [.null]) [.child (.compare .le (.query ⟨false, []⟩) (.lit .null))] l → l = [.null] := by
  refine ⟨_, rfl, fun oracle => ⟨run_of_runFuel 30 _ (by krfl), fun l hl => ?_⟩⟩
  refine found_held ?_ hl
  rw [compare_iff (by simp [V.WF, WFs]) (by simp [V.WF]) self_value (.lit _)]
  exact .inr (.value .null)

/-- `$[?(@.length == 0)]` of `[[]]` selects the array, where by the RFC it selects nothing, as arrays have no members. -/
theorem C97_fails_length : ∃ p, Compile env (b! "$[?(@.length == 0)]") = .ok p ∧ ∀ oracle,
    Eval env oracle p (.arr [.arr []]) = some (.ok (some [.arr []])) ∧
    ∀ l, Rfc.Finds (.arr [.arr []]) [.child (.compare .eq (.query ⟨false, [.dot (b! "length")]⟩) (.lit (.int 0)))] l → l = [] := by
  refine ⟨_, rfl, fun oracle => ⟨run_of_runFuel 30 _ (by krfl), fun l hl => ?_⟩⟩
  refine found_not ?_ hl
  have hq : Rfc.Operand.Value (.arr [.arr []]) (.arr []) (.query ⟨false, [.dot (b! "length")]⟩) none :=
    .query (Rfc.value_snoc (r := false) (l := []) (o := none) .root (.noObject (v := .arr []) (fun kvs h => by cases h)))
  rw [compare_iff (by simp [V.WF, WFs]) (by simp [V.WF, WFs]) hq (.lit _)]
  nofun

/-- `$[?(@ == null)]` of `[]` selects a null, where by the RFC it selects nothing. -/
theorem C97_fails_empty : ∃ p, Compile env (b! "$[?(@ == null)]") = .ok p ∧ ∀ oracle,
    Eval env oracle p (.arr []) = some (.ok (some [.null])) ∧
    ∀ l, Rfc.Finds (.arr []) [.child (.compare .eq (.query ⟨false, []⟩) (.lit .null))] l → l = [] := by
  refine ⟨_, rfl, fun oracle => ⟨run_of_runFuel 30 _ (by krfl), fun l hl => ?_⟩⟩
  cases found hl
  rfl

/-- `$..[?(@ < 2)]` of `[1]` selects nothing, where by the RFC it selects the 1: the filter is applied to the structures, not to their children. -/
theorem C97_fails_descend : ∃ p, Compile env (b! "$..[?(@ < 2)]") = .ok p ∧ ∀ oracle,
    Eval env oracle p (.arr [.int 1]) = some (.ok (some [])) ∧
    ∀ l, Rfc.Finds (.arr [.int 1]) [.descend (.compare .lt (.query ⟨false, []⟩) (.lit (.int 2)))] l → l = [.int 1] := by
  refine ⟨_, rfl, fun oracle => ⟨run_of_runFuel 30 _ (by krfl), fun l hl => ?_⟩⟩
  have hh : (Rfc.Logical.compare .lt (.query ⟨false, []⟩) (.lit (.int 2))).Holds (.arr [.int 1]) (.int 1) := by
    rw [compare_iff (by simp [V.WF, WFs]) (by simp [V.WF]) self_value (.lit _)]
    exact .value (.number (.int _) (.int _) (by decide))
  have hv : Rfc.Visits (.arr [.int 1]) [([], .arr [.int 1]), ([.index 0], .int 1)] := by
    refine ⟨fun p w => ⟨fun h => ?_, fun h => ?_⟩, ?_⟩
    · simp only [List.mem_cons, List.not_mem_nil, or_false, Prod.mk.injEq] at h
      rcases h with ⟨rfl, rfl⟩ | ⟨rfl, rfl⟩
      · exact .here _
      · exact .elem rfl (.here _)
    · cases h with
      | here => simp
      | elem hx h =>
        rename_i i x p
        cases i with
        | zero => cases hx; cases h; simp
        | succ i => simp at hx
    · refine .cons ?_ (.cons (by simp) .nil)
      intro b hb
      rw [List.mem_singleton.1 hb]
      exact ⟨by simp, fun r i j h => by simp at h⟩
  have hf : Rfc.Finds (.arr [.int 1]) [.descend (.compare .lt (.query ⟨false, []⟩) (.lit (.int 2)))] [.int 1] :=
    .part (q := []) (ls := [[.int 1]]) .root (.cons (.descend (ls := [[.int 1], []]) hv (.cons ⟨_, .arr _, .keep (by simpa using hh) .nil⟩
      (.cons ⟨_, .other _ rfl, .nil⟩ .nil))) .nil)
  exact List.perm_singleton.1 (C97_nodelists _ (by simp [V.WF, WFs]) _ _ _ hl hf)

/-- Filters must be in parentheses, which the RFC leaves open: `$[?@.a]` is refused. -/
theorem C97_fails_bare : ∃ e, Compile env (b! "$[?@.a]") = .err e := ⟨_, rfl⟩

end JP
