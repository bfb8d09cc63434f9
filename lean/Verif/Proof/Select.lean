import Verif.Spec.Select
import Verif.Proof.Api
/-! The selection functions of the machine against the list-level specification. -/
namespace JP
open Spec

theorem IsCompiled.wf {env : Env} {p : JSONPath} {q : Path} (h : IsCompiled env p q) : q.WF := by
  obtain ⟨⟨t, h1, h2⟩, _⟩ := h
  obtain ⟨path, hp, hw, _⟩ := Compile_ok h1
  rw [h2] at hp; cases hp
  exact hw

theorem IsCompiled.eval {env : Env} {p : JSONPath} {q : Path} (h : IsCompiled env p q) (oracle : Oracle)
    (root : V) : Eval env oracle p root = some (evalPath env oracle root q) := by
  obtain ⟨⟨t, h1, h2⟩, hs⟩ := h
  obtain ⟨path, hp, _, he⟩ := Eval_eq oracle h1 hs root
  rw [h2] at hp; cases hp
  exact he

/-- A text of at most 3 MB that parses also compiles. -/
theorem compiled_of_parse {env : Env} {text : Bytes} {q : Path} (h : parsePath env text = .ok q) (ht : text.length ≤ 3 * 2 ^ 20) :
    ∃ p, Compile env text = .ok p ∧ IsCompiled env p q := by
  have hc : ∃ p, Compile env text = .ok p := by
    unfold Compile
    rcases parsePath_ok env text with ⟨path', hp, hw, hs⟩ | ⟨e, he, _⟩
    · rw [hp]
      rcases compile_sz path' hw with ⟨prog, hc, _⟩ | ⟨⟨e, he⟩, hbig⟩
      · simp only [hc]; exact ⟨_, rfl⟩
      · have := parsePath_size hp
        unfold indexTop at hbig; omega
    · rw [he] at h; cases h
  obtain ⟨p, hp⟩ := hc
  exact ⟨p, hp, ⟨text, hp, h⟩, Compile_small hp ht⟩

theorem evalSteps_append (env : Env) (oracle : Oracle) (root : V) : ∀ (p q : Path) (out : GoSlice) (t : Nat),
    evalSteps env oracle root (p ++ q) out t = (do
      let (out, t) ← evalSteps env oracle root p out t
      evalSteps env oracle root q out t)
  | [], q, out, t => by simp [evalSteps]
  | s :: p, q, out, t => by
    simp only [List.cons_append, evalSteps]
    cases evalStep env oracle root s out t with
    | ok a => exact evalSteps_append env oracle root p q a.1 a.2
    | err e => rfl
    | panic m => rfl
    | stuck => rfl

theorem evalPath_ok_iff {env : Env} {oracle : Oracle} {root : V} {q : Path} {vs : List V} :
    evalPath env oracle root q = .ok (some vs) ↔ ∃ out t, evalSteps env oracle root q (some [root]) 0 = .ok (out, t) ∧
      out.elems = vs := by
  unfold evalPath
  constructor
  · intro h
    obtain ⟨⟨out, t⟩, h1, h2⟩ := bind_eq_ok h
    simp only [Res.ok.injEq, Option.some.injEq] at h2
    exact ⟨out, t, h1, h2⟩
  · rintro ⟨out, t, h1, rfl⟩
    rw [h1]; rfl

/-- The result of `Eval`, from the result of a step. -/
def stepResult (r : Res RErr (GoSlice × Nat)) : Res RErr GoSlice := do
  let (out, _) ← r
  .ok (some out.elems)

/-- Evaluating one more step. -/
theorem eval_snoc {env : Env} {oracle : Oracle} {root : V} {p1 p2 : JSONPath} {q : Path} {s : Step}
    (h1 : IsCompiled env p1 q) (h2 : IsCompiled env p2 (q ++ [s])) {vs : List V}
    (he : Eval env oracle p1 root = some (.ok (some vs))) :
    ∃ out t, out.elems = vs ∧ Eval env oracle p2 root = some (stepResult (evalStep env oracle root s out t)) := by
  rw [h1.eval oracle root] at he
  simp only [Option.some.injEq] at he
  obtain ⟨out, t, ho, hv⟩ := evalPath_ok_iff.1 he
  refine ⟨out, t, hv, ?_⟩
  rw [h2.eval oracle root]
  unfold evalPath stepResult
  rw [evalSteps_append, ho]
  simp only [Res.bind_ok, evalSteps]
  cases evalStep env oracle root s out t <;> rfl

theorem eval_wf {env : Env} {oracle : Oracle} {root : V} (hr : root.WF) {p : JSONPath} {q : Path}
    (h : IsCompiled env p q) {vs : List V} (he : Eval env oracle p root = some (.ok (some vs))) : ∀ v ∈ vs, v.WF := by
  have := evalPath_safe (S := False) (N := True) (env := env) (oracle := oracle) hr.noSlice hr.lens q (h.wf) (fun _ _ _ => trivial)
    (fun _ _ _ _ hf => hf.elim)
  rw [h.eval oracle root] at he
  simp only [Option.some.injEq] at he
  rw [he] at this
  obtain ⟨vs', hvs, h⟩ := this
  cases hvs
  intro v hv
  rcases h v hv with h | ⟨_, rfl⟩
  · exact h.wf hr
  · simp [V.WF]

theorem step_wf {env : Env} {p : JSONPath} {q : Path} {s : Step} (h : IsCompiled env p (q ++ [s])) :
    s.WF := h.wf s (by simp)

/-! ### One value -/

theorem filter_key_none {kvs : List (Bytes × V)} {name : Bytes} (h : ∀ v, (name, v) ∉ kvs) :
    kvs.filter (fun kv => kv.1 = name) = [] := by
  rw [List.filter_eq_nil_iff]
  rintro ⟨k, v⟩ hk
  simp only [decide_eq_true_eq]
  rintro rfl
  exact h v hk

theorem lookup_eq {kvs : List (Bytes × V)} (hn : (kvs.map Prod.fst).Nodup) (name : Bytes) :
    (lookup kvs name).toList = memberOf name (.obj kvs) := by
  show _ = (kvs.filter fun kv => kv.1 = name).map Prod.snd
  induction kvs with
  | nil => rfl
  | cons kv r ih =>
    obtain ⟨k, v⟩ := kv
    simp only [List.map_cons, List.nodup_cons] at hn
    unfold lookup
    by_cases hk : k = name
    · subst hk
      rw [List.filter_cons_of_pos (by simp), filter_key_none (kvs := r)]
      · simp
      · intro w hw
        exact hn.1 (List.mem_map.2 ⟨(k, w), hw, rfl⟩)
    · rw [if_neg hk, List.filter_cons_of_neg (by simpa using hk)]
      exact ih hn.2

theorem GoSlice.elems_appendAll (s : GoSlice) (vs : List V) : (s.appendAll vs).elems = s.elems ++ vs := by
  unfold GoSlice.appendAll
  split
  · simp
  · rfl

theorem GoSlice.elems_append (s : GoSlice) (v : V) : (s.append v).elems = s.elems ++ [v] := rfl

/-- A call of `valsByKey` appends what a list function says. -/
def Appends (r : Res RErr GoSlice) (acc : GoSlice) (l : List V) : Prop := ∃ out, r = .ok out ∧ out.elems = acc.elems ++ l

theorem valsByKey_name {env : Env} {acc : GoSlice} {src : V} (hw : src.WF) {neg : Bool} {key : V} {s : Bytes}
    (hk : key = .name s ∨ key = .str s) : Appends (valsByKey env acc src key neg) acc (memberOf s src) := by
  have hm : mapKey env key = s := by rcases hk with rfl | rfl <;> rfl
  have hi : isInt key = false := by rcases hk with rfl | rfl <;> rfl
  have hsl : ∀ x, key ≠ .slice x := by rcases hk with rfl | rfl <;> simp
  cases src
  case obj kvs =>
    have h := lookup_eq hw.2.1 s
    unfold valsByKey
    split
    · exact absurd rfl (hsl _)
    · simp only [valByKey, hm]
      cases hl : lookup kvs s with
      | none => rw [hl] at h; exact ⟨acc, rfl, by rw [← h]; simp⟩
      | some v => rw [hl] at h; exact ⟨_, rfl, by rw [GoSlice.elems_append, ← h]; simp⟩
  case arr xs =>
    unfold valsByKey
    split
    · exact absurd rfl (hsl _)
    · simp only [hi, Bool.false_eq_true, if_false]
      exact ⟨acc, rfl, by simp [memberOf]⟩
  all_goals
    unfold valsByKey
    split
    · exact absurd rfl (hsl _)
    · exact ⟨acc, rfl, by simp [memberOf]⟩

theorem valsByKey_int {env : Env} {acc : GoSlice} {src : V} (hw : src.WF) {neg : Bool} {n : Int64} :
    Appends (valsByKey env acc src (.int n) neg) acc (indexOf neg n.toInt src) := by
  cases src
  case obj kvs =>
    have h := lookup_eq hw.2.1 (intToBytes n.toInt)
    unfold valsByKey
    simp only [valByKey, mapKey, sprint, indexOf]
    cases hl : lookup kvs (intToBytes n.toInt) with
    | none => rw [hl] at h; exact ⟨acc, rfl, by rw [← h]; simp⟩
    | some v => rw [hl] at h; exact ⟨_, rfl, by rw [GoSlice.elems_append, ← h]; simp⟩
  case arr xs =>
    have hl : xs.length < 2 ^ 63 := hw.1
    have hlen := i64_ofNat hl
    have hr := i64_range n
    have key : ∀ m : Int64, ∀ i : Int, m.toInt = i →
        (if (decide (m ≥ 0) && decide (m < Int64.ofNat xs.length)) = true then goIndex xs m else none) =
        (if 0 ≤ i ∧ i < xs.length then xs[i.toNat]? else none) := by
      intro m i hm
      have e1 : m ≥ 0 ↔ 0 ≤ i := by rw [ge_iff_le, Int64.le_iff_toInt_le, hm]; rfl
      have e2 : m < Int64.ofNat xs.length ↔ i < xs.length := by rw [Int64.lt_iff_toInt_lt, hlen, hm]
      by_cases h : 0 ≤ i ∧ i < xs.length
      · rw [if_pos h, if_pos (by simp [e1, e2, h]), goIndex, if_neg, hm]
        rw [Int64.lt_iff_toInt_lt, hm]
        show ¬ i < 0
        omega
      · rw [if_neg h, if_neg (by simp [e1, e2]; omega)]
    have hm : (if (neg && decide (n < 0)) = true then n + Int64.ofNat xs.length else n).toInt =
        (if neg = true ∧ n.toInt < 0 then xs.length + n.toInt else n.toInt) := by
      have e0 : n < 0 ↔ n.toInt < 0 := by rw [Int64.lt_iff_toInt_lt]; rfl
      by_cases h : neg = true ∧ n.toInt < 0
      · rw [if_pos h, if_pos (by simp [e0, h]), i64_add (by omega) (by omega), hlen]; omega
      · rw [if_neg h, if_neg (by simp [e0]; simpa using h)]
    have hv : valByKey env (.arr xs) (.int n) neg =
        (let m := if (neg && decide (n < 0)) = true then n + Int64.ofNat xs.length else n
         if (decide (m ≥ 0) && decide (m < Int64.ofNat xs.length)) = true then goIndex xs m else none) := rfl
    dsimp only at hv
    rw [key _ _ hm] at hv
    unfold valsByKey
    simp only [isInt, if_true, indexOf]
    rw [hv]
    generalize (if neg = true ∧ n.toInt < 0 then xs.length + n.toInt else n.toInt) = i
    by_cases h : 0 ≤ i ∧ i < xs.length
    · simp only [if_pos h]
      cases xs[i.toNat]? with
      | none => exact ⟨acc, rfl, by simp⟩
      | some v => exact ⟨_, rfl, by simp [GoSlice.elems_append]⟩
    · simp only [if_neg h]
      exact ⟨acc, rfl, by simp⟩
  all_goals exact ⟨acc, rfl, by simp [indexOf]⟩

theorem optInt_map (b : Option Int64) : optInt (b.map .int) = boundInt b := by cases b <;> rfl

theorem valsByKey_slice {env : Env} {acc : GoSlice} {src : V} (hw : src.WF) {neg : Bool} {a b c : Option Int64}
    (hf : (Sel.slice a b c).Fits src) :
    Appends (valsByKey env acc src (.slice ⟨a.map .int, b.map .int, c.map .int⟩) neg) acc (sliced a b c src) := by
  obtain ⟨xs, rfl, hfit⟩ := hf
  have hl : xs.length < 2 ^ 63 := hw.1
  have h := (sliceVals_spec xs ⟨a.map .int, b.map .int, c.map .int⟩ hl).1 (by
    intro j hj
    have hlt : j < xs.length := by
      unfold Slice.indices sliceIndices at hj
      dsimp only at hj
      split at hj
      · exact (mem_upIdx.1 hj).1
      · split at hj
        · exact (mem_downIdx.1 hj).1
        · cases hj
    simp only [Slice.strideInt, optInt_map]
    omega)
  simp only [Slice.strideInt, optInt_map] at h
  unfold valsByKey
  simp only [h, Res.bind_ok]
  exact ⟨_, rfl, by rw [GoSlice.elems_appendAll]; rfl⟩

/-- The value of a literal argument of a step. -/
def Val.lit : Val → V
  | .name s => .name s
  | .int n => .int n
  | .str s => .str s
  | .slice s => .slice s
  | .expr _ => .null

theorem valsByKey_sel {env : Env} {acc : GoSlice} {src : V} (hw : src.WF) {v : Val} {sel : Sel} (hv : sel.Is v)
    (hf : sel.Fits src) : Appends (valsByKey env acc src v.lit true) acc (sel.of src) := by
  cases hv with
  | name s => exact valsByKey_name hw (.inl rfl)
  | str s => exact valsByKey_name hw (.inr rfl)
  | int n => exact valsByKey_int hw
  | slice a b c => exact valsByKey_slice hw hf

theorem evalVal_lit {env : Env} {oracle : Oracle} {root dot : V} {v : Val} {sel : Sel} (hv : sel.Is v) (t : Nat) :
    evalVal env oracle root dot v t = .ok (v.lit, t) := by
  cases hv <;> rfl

theorem evalVals_lit {env : Env} {oracle : Oracle} {root dot : V} {vs : List Val} {sels : List Sel}
    (hv : All2 (fun v sel => Sel.Is v sel) vs sels) (t : Nat) :
    evalVals env oracle root dot vs t = .ok (vs.map Val.lit, t) := by
  induction hv with
  | nil => rfl
  | cons h _ ih => simp only [evalVals, evalVal_lit h, ih, Res.bind_ok, List.map_cons]

theorem lit_not_nothing {v : Val} {sel : Sel} (hv : sel.Is v) : isNothing v.lit = false := by cases hv <;> rfl

theorem unionByKeys_sels {env : Env} {src : V} (hw : src.WF) {vs : List Val} {sels : List Sel}
    (hv : All2 (fun v sel => Sel.Is v sel) vs sels) (hf : ∀ sel ∈ sels, sel.Fits src) : ∀ (acc : GoSlice),
    Appends (unionByKeys env acc src (vs.map Val.lit)) acc (sels.flatMap fun sel => sel.of src) := by
  induction hv with
  | nil => intro acc; exact ⟨acc, rfl, by simp⟩
  | cons h _ ih =>
    intro acc
    obtain ⟨out, ho, he⟩ := valsByKey_sel (env := env) (acc := acc) hw h (hf _ (by simp))
    obtain ⟨out', ho', he'⟩ := ih (fun s hs => hf s (by simp [hs])) out
    refine ⟨out', ?_, by rw [he', he]; simp⟩
    simp only [List.map_cons, unionByKeys, lit_not_nothing h, Bool.false_eq_true, if_false, ho, Res.bind_ok, ho']

/-! ### Result sets -/

theorem applySelection_flatMap {f : Nat → V → GoSlice → Res RErr GoSlice} {g : V → List V} :
    ∀ (l : List V) (k : Nat) (acc : GoSlice), (∀ v ∈ l, ∀ k acc, Appends (f k v acc) acc (g v)) →
    Appends (applySelection f k acc l) acc (l.flatMap g)
  | [], k, acc, _ => ⟨acc, rfl, by simp⟩
  | v :: r, k, acc, h => by
    obtain ⟨out, ho, he⟩ := h v (by simp) k acc
    obtain ⟨out', ho', he'⟩ := applySelection_flatMap r (k + 1) out (fun w hw => h w (by simp [hw]))
    refine ⟨out', ?_, by rw [he', he]; simp⟩
    simp only [applySelection, ho, Res.bind_ok, ho']

theorem applySelection_parts {f : Nat → V → GoSlice → Res RErr GoSlice} {R : V → List V → Prop} :
    ∀ (l : List V) (k : Nat) (acc : GoSlice), (∀ v ∈ l, ∀ k acc, ∃ part, R v part ∧ Appends (f k v acc) acc part) →
    ∃ parts, All2 R l parts ∧ Appends (applySelection f k acc l) acc parts.flatten
  | [], k, acc, _ => ⟨[], .nil, acc, rfl, by simp⟩
  | v :: r, k, acc, h => by
    obtain ⟨part, hR, out, ho, he⟩ := h v (by simp) k acc
    obtain ⟨parts, hRs, out', ho', he'⟩ := applySelection_parts r (k + 1) out (fun w hw => h w (by simp [hw]))
    refine ⟨part :: parts, .cons hR hRs, out', ?_, by rw [he', he]; simp⟩
    simp only [applySelection, ho, Res.bind_ok, ho']

/-! ### Iteration orders -/

theorem permute_range {α : Type} (xs : List α) : permute (List.range xs.length) xs = xs := by
  unfold permute
  induction xs with
  | nil => rfl
  | cons x r ih =>
    rw [List.length_cons, List.range_succ_eq_map, List.filterMap_cons]
    simp only [List.getElem?_cons_zero, List.filterMap_map]
    congr 1

theorem permute_perm {α : Type} {p : List Nat} {xs : List α} (h : p.Perm (List.range xs.length)) :
    (permute p xs).Perm xs := by
  have := List.Perm.filterMap (fun i => xs[i]?) h
  rw [show (List.range xs.length).filterMap (fun i => xs[i]?) = xs from permute_range xs] at this
  exact this

theorem Spec.All2.length {α β : Type} {R : α → β → Prop} {as : List α} {bs : List β} (h : All2 R as bs) :
    as.length = bs.length := by
  induction h with
  | nil => rfl
  | cons _ _ ih => simp [ih]

theorem Spec.All2.append {α β : Type} {R : α → β → Prop} {as as' : List α} {bs bs' : List β} (h : All2 R as bs)
    (h' : All2 R as' bs') : All2 R (as ++ as') (bs ++ bs') := by
  induction h with
  | nil => exact h'
  | cons h _ ih => exact .cons h ih

theorem Spec.All2.get {α β : Type} {R : α → β → Prop} {as : List α} {bs : List β} (h : All2 R as bs) (i : Nat) :
    (as[i]? = none ∧ bs[i]? = none) ∨ ∃ a b, as[i]? = some a ∧ bs[i]? = some b ∧ R a b := by
  induction h generalizing i with
  | nil => exact .inl ⟨rfl, rfl⟩
  | cons h _ ih =>
    cases i with
    | zero => exact .inr ⟨_, _, rfl, rfl, h⟩
    | succ i => simpa using ih i

theorem Spec.All2.permute {α β : Type} {R : α → β → Prop} {as : List α} {bs : List β} (h : All2 R as bs) (p : List Nat) :
    All2 R (permute p as) (permute p bs) := by
  induction p with
  | nil => exact .nil
  | cons i r ih =>
    unfold JP.permute at ih ⊢
    rcases h.get i with ⟨h1, h2⟩ | ⟨a, b, h1, h2, h3⟩
    · rw [List.filterMap_cons_none h1, List.filterMap_cons_none h2]; exact ih
    · rw [List.filterMap_cons_some h1, List.filterMap_cons_some h2]; exact .cons h3 ih

theorem children_spec {ord : Ord} (hv : ord.Valid) (loc : List Nat) (v : V) : Children v (children ord loc v) := by
  cases v
  case arr xs => exact .arr xs
  case obj kvs => exact .obj _ _ (permute_perm (by simpa using hv loc kvs.length))
  all_goals exact .other _ rfl

theorem stepping_spec {ord : Ord} (hv : ord.Valid) : ∀ (vs : List V) (k : Nat),
    ∃ parts, All2 Children vs parts ∧ stepping ord k vs = parts.flatten
  | [], _ => ⟨[], .nil, rfl⟩
  | v :: r, k => by
    obtain ⟨parts, h1, h2⟩ := stepping_spec hv r (k + 1)
    exact ⟨_ :: parts, .cons (children_spec hv [k] v) h1, by simp [stepping, h2]⟩

theorem Spec.PreOrders.ofAll2 {vs : List V} {ls : List (List V)} (h : All2 PreOrder vs ls) : PreOrders vs ls.flatten := by
  induction h with
  | nil => exact .nil
  | cons h _ ih => exact .cons _ _ _ _ h ih

mutual
theorem walkdown_spec {ord : Ord} (hv : ord.Valid) : ∀ (v : V) (loc : List Nat), isStructure v = true →
    PreOrder v (walkdown ord loc v)
  | .arr xs, loc, _ => by
    unfold walkdown
    exact .arr _ _ (walkElems_spec hv xs loc 0)
  | .obj kvs, loc, _ => by
    unfold walkdown
    have h := (walkMembers_spec hv kvs loc 0).permute (ord loc kvs.length)
    exact .obj _ _ _ (permute_perm (by simpa using hv loc kvs.length)) (.ofAll2 h)
  | .null, _, h => by cases h
  | .bool _, _, h => by cases h
  | .gint _, _, h => by cases h
  | .int _, _, h => by cases h
  | .float _, _, h => by cases h
  | .str _, _, h => by cases h
  | .num _, _, h => by cases h
  | .name _, _, h => by cases h
  | .re _, _, h => by cases h
  | .slice _, _, h => by cases h
  | .err _, _, h => by cases h
theorem walkElems_spec {ord : Ord} (hv : ord.Valid) : ∀ (xs : List V) (loc : List Nat) (i : Nat),
    PreOrders xs (walkElems ord loc i xs)
  | [], _, _ => by unfold walkElems; exact .nil
  | v :: r, loc, i => by
    unfold walkElems
    refine .cons _ _ _ _ ?_ (walkElems_spec hv r loc (i + 1))
    by_cases h : isStructure v = true
    · rw [if_pos h]; exact walkdown_spec hv v (i :: loc) h
    · rw [if_neg h]; exact .other _ (by simpa using h)
theorem walkMembers_spec {ord : Ord} (hv : ord.Valid) : ∀ (kvs : List (Bytes × V)) (loc : List Nat) (i : Nat),
    All2 PreOrder (kvs.map Prod.snd) (walkMembers ord loc i kvs)
  | [], _, _ => by unfold walkMembers; exact .nil
  | (k, v) :: r, loc, i => by
    unfold walkMembers
    refine .cons ?_ (walkMembers_spec hv r loc (i + 1))
    by_cases h : isStructure v = true
    · rw [if_pos h]; exact walkdown_spec hv v (i :: loc) h
    · rw [if_neg h]; exact .other _ (by simpa using h)
end

theorem walker_spec {ord : Ord} (hv : ord.Valid) : ∀ (vs : List V) (k : Nat), PreOrders vs (walker ord k vs)
  | [], _ => .nil
  | v :: r, k => by
    unfold walker
    refine .cons _ _ _ _ ?_ (walker_spec hv r (k + 1))
    by_cases h : isStructure v = true
    · rw [if_pos h]; exact walkdown_spec hv v [k] h
    · rw [if_neg h]; exact .other _ (by simpa using h)

/-! ### Visiting -/

theorem visits_flatMap {env : Env} {oracle : Oracle} {root : V} {s : Step} {sels : List Sel} {g : V → List V}
    (hargs : All2 (fun v sel => Sel.Is v sel) s.args sels) :
    ∀ (l : List V) (out : GoSlice) (t : Nat),
    (∀ v ∈ l, ∀ ord out, Appends (visit env ord s.op v (s.args.map Val.lit) out) out (g v)) →
    ∃ out' t', visits env oracle root s l out t = .ok (out', t') ∧ out'.elems = out.elems ++ l.flatMap g
  | [], out, t, _ => ⟨out, t, rfl, by simp⟩
  | v :: r, out, t, h => by
    obtain ⟨out1, ho, he⟩ := h v (by simp) (oracle t) out
    obtain ⟨out2, t2, ho', he'⟩ := visits_flatMap (oracle := oracle) (root := root) hargs r out1 (if s.op = .nestWild then t + 1 else t)
      (fun w hw => h w (by simp [hw]))
    refine ⟨out2, t2, ?_, by rw [he', he]; simp⟩
    simp only [visits, evalVals_lit hargs, Res.bind_ok, ho, ho']

theorem visits_wild {env : Env} {oracle : Oracle} (hv : oracle.Valid) {root : V} {s : Step} (hs : s = ⟨.nestWild, []⟩) :
    ∀ (l : List V) (out : GoSlice) (t : Nat),
    ∃ parts out' t', All2 Children l parts ∧ visits env oracle root s l out t = .ok (out', t') ∧
      out'.elems = out.elems ++ parts.flatten
  | [], out, t => ⟨[], out, t, .nil, rfl, by simp⟩
  | v :: r, out, t => by
    subst hs
    obtain ⟨parts, out2, t2, hp, ho', he'⟩ := visits_wild (env := env) (root := root) hv rfl r (out.appendAll (children (oracle t) [0] v)) (t + 1)
    refine ⟨_ :: parts, out2, t2, .cons (children_spec (hv t) [0] v) hp, ?_, ?_⟩
    · simp only [visits, evalVals, visit, Res.bind_ok, if_true, ho']
    · rw [he', GoSlice.elems_appendAll]; simp

theorem visits_filter {env : Env} {oracle : Oracle} {root : V} {s : Step} {e : Expr}
    (hop : s.op = .filter ∨ s.op = .nestFilter) (hargs : s.args = [.expr e]) :
    ∀ (l : List V) (out : GoSlice) (t : Nat) (out' : GoSlice) (t' : Nat),
    visits env oracle root s l out t = .ok (out', t') →
    ∃ kept, Keeps (Answer env oracle root e) l kept ∧ out'.elems = out.elems ++ kept
  | [], out, t, out', t', h => by
    unfold visits at h
    cases h
    exact ⟨[], .nil, by simp⟩
  | v :: r, out, t, out', t', h => by
    unfold visits at h
    rw [hargs] at h
    simp only [evalVals] at h
    obtain ⟨⟨vs, t1⟩, h1, h⟩ := bind_eq_ok h
    obtain ⟨⟨x, t2⟩, h2, h1⟩ := bind_eq_ok h1
    simp only [Res.bind_ok, Res.ok.injEq, Prod.mk.injEq] at h1
    obtain ⟨rfl, rfl⟩ := h1
    obtain ⟨out1, h3, h⟩ := bind_eq_ok h
    simp only at h3
    have h3' : out1 = if truthy env x = true then out.append v else out := by
      rcases hop with hop | hop <;> rw [hop] at h3 <;> simp only [visit, Res.ok.injEq] at h3 <;> exact h3.symm
    obtain ⟨kept, hk, he⟩ := visits_filter hop hargs r out1 _ out' t' h
    by_cases hx : truthy env x = true
    · rw [if_pos hx] at h3'
      subst h3'
      exact ⟨v :: kept, .keep ⟨x, ⟨t, t2, h2⟩, hx⟩ hk, by rw [he, GoSlice.elems_append]; simp⟩
    · rw [if_neg hx] at h3'
      subst h3'
      exact ⟨kept, .drop ⟨x, ⟨t, t2, h2⟩, by simpa using hx⟩ hk, he⟩

end JP
