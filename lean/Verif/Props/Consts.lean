import Verif.Proof.Consts
import Verif.Proof.Api
import Verif.Props.Ex
/-!
The constant table: C47.
-/
namespace JP
open Spec

variable (env : Env)

/-! ### C47 Equal constants share a table slot without confusion -/

/-- The full statement: of two constants of a path, the orders for them refer to the same slot exactly
when the constants are of the same kind and equal. -/
def ShareRule : Prop :=
  ∀ (text : Bytes) (p : JSONPath) (path : Path), Compile env text = .ok p → parsePath env text = .ok path →
    ∀ (j k : Nat) (c d : PVal), (consts path)[j]? = some c → (consts path)[k]? = some d →
      (p.prog.refs[j]? = p.prog.refs[k]? ↔ c = d)

/-- It is false: the two slices in `$[:1][:1]` have a slot each. -/
theorem C47_share_fails : ¬ ShareRule env := by
  intro h
  have := (h (b! "$[:1][:1]") _ _ rfl rfl 0 1 _ _ rfl rfl).2 rfl
  revert this
  decide

/-- Every constant has a slot: the k-th order that refers to the table refers to a slot that holds exactly
the k-th constant. -/
theorem C47_slot (text : Bytes) (p : JSONPath) (path : Path) (h : Compile env text = .ok p)
    (hp : parsePath env text = .ok path) :
    p.prog.refs.map (fun i => p.prog.vals[i.toNat]?) = (consts path).map some := by
  obtain ⟨path', hp', hw, hc, -⟩ := Compile_ok h
  rw [hp] at hp'
  cases hp'
  have ht := compile_tab path hw hc
  have hok := consts_ok path hw
  apply List.ext_getElem?
  intro k
  rw [List.getElem?_map, List.getElem?_map]
  cases hk : (consts path)[k]? with
  | none =>
    rw [List.getElem?_eq_none_iff] at hk
    rw [List.getElem?_eq_none (by rw [ht.len]; exact hk)]
    rfl
  | some c =>
    obtain ⟨i, w, h1, h2, h3⟩ := ht.slot k c hk
    rw [h1]
    simp only [Option.map_some, h2]
    rcases h3 with rfl | h3
    · rfl
    · obtain ⟨k', j', h4, -, -⟩ := ht.used _ w h2
      rw [keyEq_eq (same_iff.1 h3) (hok w (List.mem_of_getElem? h4)) (hok c (List.mem_of_getElem? hk))]

example := C47_slot Ex.env (b! "$.a['a'].a[3]") _ _ rfl rfl

/-- Constants that can be compared: not slices, regular expressions or NaN. -/
def Spec.Comparable : PVal → Prop
  | .int _ | .str _ | .name _ => True
  | .float f => f.isNaN = false
  | .slice _ | .re _ => False

/-- The rule holds for integers, numbers, names and strings. -/
theorem C47_share_partial (text : Bytes) (p : JSONPath) (path : Path) (h : Compile env text = .ok p)
    (hp : parsePath env text = .ok path) (j k : Nat) (c d : PVal) (hj : (consts path)[j]? = some c) (hk : (consts path)[k]? = some d)
    (hcc : Comparable c) : p.prog.refs[j]? = p.prog.refs[k]? ↔ c = d := by
  have hs := C47_slot env text p path h hp
  obtain ⟨path', hp', hw, hc, -⟩ := Compile_ok h
  rw [hp] at hp'
  cases hp'
  have ht := compile_tab path hw hc
  have slot : ∀ (k : Nat) c, (consts path)[k]? = some c → ∃ i, p.prog.refs[k]? = some i ∧ p.prog.vals[i.toNat]? = some c := by
    intro k c hk
    have := congrArg (fun l => l[k]?) hs
    simp only [List.getElem?_map, hk, Option.map_some] at this
    cases hr : p.prog.refs[k]? with
    | none => rw [hr] at this; cases this
    | some i => rw [hr] at this; exact ⟨i, rfl, by simpa using this⟩
  obtain ⟨i, hi, hvi⟩ := slot j c hj
  obtain ⟨i', hi', hvi'⟩ := slot k d hk
  rw [hi, hi']
  constructor
  · intro he
    cases he
    rw [hvi] at hvi'
    cases hvi'
    rfl
  · rintro rfl
    have hself : Same c c := by
      cases c with
      | int n => exact .int n
      | str n => exact .str n
      | name n => exact .name n
      | float f => exact .float f f (by rw [F64.feq_self]; exact hcc)
      | slice => exact hcc.elim
      | re => exact hcc.elim
    have hlt := (List.getElem?_eq_some_iff.mp hvi).1
    have hlt' := (List.getElem?_eq_some_iff.mp hvi').1
    have hd := List.pairwise_iff_getElem.1 ht.distinct
    have e1 := (List.getElem?_eq_some_iff.mp hvi).2
    have e2 := (List.getElem?_eq_some_iff.mp hvi').2
    rcases Nat.lt_trichotomy i.toNat i'.toNat with hl | hl | hl
    · exact absurd (by rw [e1, e2]; exact hself) (hd _ _ hlt hlt' hl)
    · rw [UInt32.toNat_inj.1 hl]
    · exact absurd (by rw [e1, e2]; exact hself) (hd _ _ hlt' hlt hl)

example := C47_share_partial Ex.env (b! "$.a['a'].a[3]") _ _ rfl rfl 0 2 (.name (b! "a")) (.name (b! "a")) rfl rfl trivial

/-- Each slice and each regular expression has a slot of its own. -/
theorem C47_own_slot (text : Bytes) (p : JSONPath) (path : Path) (h : Compile env text = .ok p)
    (hp : parsePath env text = .ok path) (j k : Nat) (c d : PVal) (hj : (consts path)[j]? = some c) (hk : (consts path)[k]? = some d)
    (hcc : ¬ Comparable c) : p.prog.refs[j]? = p.prog.refs[k]? ↔ j = k := by
  obtain ⟨path', hp', hw, hc, -⟩ := Compile_ok h
  rw [hp] at hp'
  cases hp'
  have ht := compile_tab path hw hc
  have nself : ∀ d, ¬ Same c d := by
    intro d hs
    cases hs with
    | float x y hf =>
      have := (F64.feq_iff.1 hf).1
      exact hcc this
    | int | str | name => exact hcc trivial
  refine ⟨?_, fun h => by rw [h]⟩
  intro he
  obtain ⟨i, w, hi, hvi, hwc⟩ := ht.slot j c hj
  obtain ⟨i', w', hi', hvi', hwd⟩ := ht.slot k d hk
  rw [hi, hi'] at he
  cases he
  rcases hwc with rfl | hwc
  · rw [hvi] at hvi'
    cases hvi'
    rcases hwd with rfl | hwd
    · rcases Nat.lt_trichotomy j k with hl | hl | hl
      · exact absurd (ht.share j k _ i hk hl hi hi') (nself _)
      · exact hl
      · exact absurd (ht.share k j _ i hj hl hi' hi) (nself _)
    · exact absurd hwd (nself _)
  · exact absurd hwc.symm (nself _)

example := C47_own_slot Ex.env (b! "$[1:2][1:2]") _ _ rfl rfl 0 1 (.slice ⟨some (.int 1), some (.int 2), none⟩)
  (.slice ⟨some (.int 1), some (.int 2), none⟩) rfl rfl id

/-- No slot of the table is unused. -/
theorem C47_all_used (text : Bytes) (p : JSONPath) (h : Compile env text = .ok p) (i : Nat) (hi : i < p.prog.vals.length) :
    ∃ j, j ∈ p.prog.refs ∧ j.toNat = i := by
  obtain ⟨path, -, hw, hc, -⟩ := Compile_ok h
  obtain ⟨k, j, -, h2, h3⟩ := (compile_tab path hw hc).used i _ (List.getElem?_eq_getElem hi)
  exact ⟨j, List.mem_of_getElem? h2, h3⟩

example := C47_all_used Ex.env (b! "$.a['a'].a[3]") _ rfl 1 (by decide)

/-- A path is rejected exactly if it has more than 2^22 constants that have to differ in their slots. -/
theorem C47_too_many (text : Bytes) (path : Path) (hp : parsePath env text = .ok path) :
    Compile env text = .err (.code .tooManyVals) ↔
      ∃ l : List PVal, l.Sublist (consts path) ∧ l.Pairwise (fun a b => ¬ Same a b) ∧ 2 ^ 22 < l.length := by
  have hw : path.WF := by
    rcases parsePath_ok env text with ⟨path', hp', hw, -⟩ | ⟨e, he, -⟩
    · rw [hp] at hp'; cases hp'; exact hw
    · rw [hp] at he; cases he
  have ha := codePath_adds path hw ⟨[], []⟩ (by simp [Program.Small])
  have hcomp : Compile env text = (match compile path with
      | .ok prog => .ok ⟨text, prog⟩ | .err e => .err (.code e) | .panic m => .panic m | .stuck => .stuck) := by
    unfold Compile
    rw [hp]
    dsimp only
    cases compile path <;> rfl
  rw [hcomp]
  constructor
  · intro h
    cases hc : compile path with
    | err e =>
      unfold compile at hc
      rw [hc] at ha
      obtain ⟨l, h1, h2, h3⟩ := tab_full (consts path) tab_nil ha
      exact ⟨l, h3, h1, by rw [h2]; unfold indexTop; omega⟩
    | ok | panic | stuck => rw [hc] at h; cases h
  · rintro ⟨l, h1, h2, h3⟩
    cases hc : compile path with
    | err e => cases e; rfl
    | ok prog =>
      have ht := compile_tab path hw hc
      have := ht.count l (fun _ => true) h1 h2 (fun _ _ _ => rfl)
      rw [List.filter_eq_self.2 (by simp), List.filter_eq_self.2 (by simp)] at this
      have := ht.small
      unfold indexTop at this
      dsimp only at *
      omega
    | panic | stuck =>
      rcases compile_sz path hw with ⟨prog, h', -⟩ | ⟨⟨e, he⟩, -⟩
      · rw [h'] at hc; cases hc
      · rw [he] at hc; cases hc

example : consts [⟨.member, [.name (b! "a")]⟩, ⟨.member, [.str (b! "a")]⟩, ⟨.member, [.name (b! "a")]⟩, ⟨.select, [.int 3]⟩] =
    [.name (b! "a"), .str (b! "a"), .name (b! "a")] := rfl
example : ∃ p, Compile Ex.env (b! "$.a['a'].a[3]") = .ok p ∧ p.prog.refs = [0, 1, 0] := ⟨_, rfl, by decide⟩
/-- Paths with too many constants exist: any number of names that differ. -/
example (f : Nat → Bytes) (hf : ∀ a b, f a = f b → a = b) : ∃ l : List PVal,
    l.Sublist (consts ((List.range (2 ^ 22 + 1)).map fun i => ⟨.member, [.name (f i)]⟩)) ∧ l.Pairwise (fun a b => ¬ Same a b) ∧ 2 ^ 22 < l.length := by
  refine ⟨(List.range (2 ^ 22 + 1)).map fun i => .name (f i), ?_, ?_, ?_⟩
  · rw [consts, List.flatMap_map, List.map_eq_flatMap]
    exact List.Sublist.refl _
  · rw [List.pairwise_map]
    refine List.pairwise_lt_range.imp ?_
    intro a b hab hs
    generalize hx : PVal.name (f a) = x at hs
    generalize hy : PVal.name (f b) = y at hs
    cases hs with
    | name s => cases hx; have := hf a b (by injection hy with hy; exact hy.symm); omega
    | _ => cases hx
  · rw [List.length_map, List.length_range]; omega

end JP
