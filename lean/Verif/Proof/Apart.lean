import Verif.Spec.Apart
import Verif.Proof.Grow
import Verif.Proof.Locate
import Verif.Proof.ProgText
/-! Lemmas about paths of names, integers and `*`: a document for any two of them that selects 1 with only one. -/
namespace JP
open Spec

theorem reads_of {s : Step} {x : Pick} (h : ReadsPick s x) {v : V} (hv : v.WF) : stepOf s v = x.of v := by
  have far : ∀ (neg : Bool) (n : Int64), (¬ Reachable n.toInt ∨ (neg = false ∧ n.toInt < 0)) → indexOf neg n.toInt v = memberOf (intToBytes n.toInt) v := by
    intro neg n hn
    cases v with
    | arr xs =>
      unfold V.WF at hv
      have := hv.1
      unfold indexOf memberOf
      dsimp only
      unfold Reachable at hn
      have h1 := Int64.le_toInt n
      have h2 := Int64.toInt_lt n
      generalize hi : (if neg = true ∧ n.toInt < 0 then (xs.length : Int) + n.toInt else n.toInt) = i
      rw [if_neg]
      rcases hn with hn | ⟨rfl, hn⟩
      · split at hi <;> omega
      · rw [if_neg (by simp)] at hi
        omega
    | obj kvs => rfl
    | _ => rfl
  cases h with
  | dotName | quoted | bare => simp [stepOf, keyed, Pick.of]
  | index => simp [stepOf, keyed, Pick.of]
  | far n h => simp [stepOf, keyed, Pick.of, far _ n (.inl h)]
  | dotFar n h0 h => simp [stepOf, keyed, Pick.of, far _ n (.inl h)]
  | dotNegative n h => simp [stepOf, keyed, Pick.of, far false n (.inr ⟨rfl, h⟩)]
  | dotIndex n h0 =>
    simp only [stepOf, keyed, Pick.of, List.flatMap_cons, List.flatMap_nil, List.append_nil]
    unfold indexOf
    cases v <;> try rfl
    dsimp only
    rw [if_neg (c := true = true ∧ n.toInt < 0) (by omega), if_neg (c := false = true ∧ n.toInt < 0) (by simp)]
  | wild => rfl

theorem kidsOf_child {v x : V} (h : x ∈ kidsOf v) : Child v x := by
  cases v with
  | arr xs => exact .inl ⟨_, rfl, h⟩
  | obj kvs =>
    obtain ⟨⟨k, x⟩, h1, rfl⟩ := List.mem_map.1 h
    exact .inr ⟨_, k, rfl, h1⟩
  | _ => cases h

theorem Spec.Pick.child {p : Pick} {v x : V} (h : x ∈ p.of v) : Child v x := by
  cases p with
  | name s => exact mem_memberOf h
  | index n => exact mem_indexOf h
  | all => exact kidsOf_child h

theorem pathOf_picked {q : Path} {ps : List Pick} (h : All2 ReadsPick q ps) : ∀ {v : V}, v.WF → pathOf q v = picked ps v := by
  induction h with
  | nil => intro v _; rfl
  | cons h1 _ ih =>
    intro v hv
    unfold pathOf picked
    rw [reads_of h1 hv]
    exact List.flatMap_congr fun x hx => ih ((Spec.Pick.child hx).wf hv)

theorem reads_plain {q : Path} {ps : List Pick} (h : All2 ReadsPick q ps) : PlainPath q := by
  intro s hs
  obtain ⟨x, _, hx⟩ := h.mem_left hs
  cases hx with
  | dotName s => exact .inl (.member s)
  | quoted s => exact .inl (.select _ (.str s))
  | bare s => exact .inl (.select _ (.name s))
  | index n => exact .inl (.select _ (.int n))
  | far n => exact .inl (.select _ (.int n))
  | dotIndex n => exact .inl (.index n)
  | dotFar n => exact .inl (.index n)
  | dotNegative n => exact .inl (.index n)
  | wild => exact .inl .wild

/-! ### Documents -/

/-- An index of an array, if it is one. -/
def Pick.Ok : Pick → Prop
  | .index n => Reachable n
  | _ => True

/-- An array of nulls but for one element. -/
def slot (n : Int) (v : V) : V :=
  if 0 ≤ n then .arr (List.replicate n.toNat .null ++ [v]) else .arr (v :: List.replicate (n.natAbs - 1) .null)

theorem wfs_replicate : ∀ n, WFs (List.replicate n .null)
  | 0 => trivial
  | n + 1 => ⟨by simp [V.WF], wfs_replicate n⟩

theorem wfs_snoc : ∀ {xs : List V} {v : V}, WFs xs → v.WF → WFs (xs ++ [v])
  | [], _, _, h => ⟨h, trivial⟩
  | _ :: _, _, h, h2 => ⟨h.1, wfs_snoc h.2 h2⟩

theorem slot_wf {n : Int} (hn : Reachable n) {v : V} (hv : v.WF) : (slot n v).WF := by
  unfold Reachable at hn
  unfold slot
  split
  · refine ⟨by simp; omega, wfs_snoc (wfs_replicate _) hv⟩
  · exact ⟨by simp; omega, hv, wfs_replicate _⟩

theorem slot_of (n : Int) (v : V) : indexOf true n (slot n v) = [v] := by
  unfold slot
  split
  · next h =>
    unfold indexOf
    dsimp only
    rw [if_neg (c := true = true ∧ n < 0) (by omega), if_pos (by simp; omega)]
    simp
  · next h =>
    unfold indexOf
    dsimp only
    have hl : ((v :: List.replicate (n.natAbs - 1) V.null).length : Int) + n = 0 := by simp; omega
    rw [if_pos (c := true = true ∧ n < 0) ⟨rfl, by omega⟩, hl, if_pos (by simp)]
    rfl

theorem obj_wf {s : Bytes} {v : V} (hv : v.WF) : (V.obj [(s, v)]).WF := ⟨by simp, by simp, hv, trivial⟩

theorem memberOf_one (s t : Bytes) (v : V) : memberOf t (.obj [(s, v)]) = if s = t then [v] else [] := by
  unfold memberOf
  by_cases h : s = t <;> simp [h]

/-- A document of which all steps select. -/
def wrapUp : List Pick → V → V
  | [], v => v
  | .name s :: r, v => .obj [(s, wrapUp r v)]
  | .index n :: r, v => slot n (wrapUp r v)
  | .all :: r, v => .arr [wrapUp r v]

theorem wrapUp_wf : ∀ {ps : List Pick} {v : V}, (∀ x ∈ ps, Pick.Ok x) → v.WF → (wrapUp ps v).WF
  | [], _, _, h => h
  | .name s :: r, _, hp, h => obj_wf (wrapUp_wf (fun x hx => hp x (by simp [hx])) h)
  | .index n :: r, _, hp, h => slot_wf (hp (.index n) (by simp)) (wrapUp_wf (fun x hx => hp x (by simp [hx])) h)
  | .all :: r, _, hp, h => ⟨by simp, wrapUp_wf (fun x hx => hp x (by simp [hx])) h, trivial⟩

theorem wrapUp_of (x : Pick) (r : List Pick) (v : V) : x.of (wrapUp (x :: r) v) = [wrapUp r v] := by
  cases x with
  | name s => simp [wrapUp, Pick.of, memberOf_one]
  | index n => exact slot_of n _
  | all => rfl

theorem picked_wrapUp : ∀ (ps qs : List Pick) (v : V), picked (ps ++ qs) (wrapUp ps v) = picked qs v
  | [], _, _ => rfl
  | x :: r, qs, v => by
    rw [List.cons_append, picked, wrapUp_of, List.flatMap_cons, picked_wrapUp r qs v]
    simp

theorem picked_self (ps : List Pick) (v : V) : picked ps (wrapUp ps v) = [v] := by
  have := picked_wrapUp ps [] v
  rwa [List.append_nil] at this

theorem picked_scalar {x : Pick} (n : Int64) : x.of (.int n) = [] := by cases x <;> rfl

/-- Different first steps: a document from which only one of the two paths selects anything. -/
theorem tell_first (x y : Pick) (hxy : x ≠ y) (r r' : List Pick) (hx : ∀ z ∈ x :: r, Pick.Ok z) (hy : ∀ z ∈ y :: r', Pick.Ok z) :
    ∃ d, d.WF ∧ ((picked (x :: r) d = [.int 1] ∧ picked (y :: r') d = []) ∨ (picked (x :: r) d = [] ∧ picked (y :: r') d = [.int 1])) := by
  have one : (V.int 1).WF := by simp [V.WF]
  have hr : (wrapUp r (.int 1)).WF := wrapUp_wf (fun z hz => hx z (by simp [hz])) one
  have hr' : (wrapUp r' (.int 1)).WF := wrapUp_wf (fun z hz => hy z (by simp [hz])) one
  have hit : ∀ (z : Pick) (t : List Pick) (d : V), z.of d = [wrapUp t (.int 1)] → picked (z :: t) d = [.int 1] := by
    intro z t d h
    rw [picked, h, List.flatMap_cons, picked_self]
    rfl
  have miss : ∀ (z : Pick) (t : List Pick) (d : V), z.of d = [] → picked (z :: t) d = [] := by
    intro z t d h
    rw [picked, h]; rfl
  have arr_name : ∀ (s : Bytes) (n : Int) (v : V), (Pick.name s).of (slot n v) = [] := by
    intro s n v
    unfold slot
    split <;> rfl
  have odd : ∀ n : Int, b! "x" ≠ intToBytes n := by
    intro n h
    unfold intToBytes at h
    split at h
    · cases h
    · have h0 := natToBytes_chars.2 120 (by rw [← h]; simp)
      revert h0
      decide
  cases x with
  | name s =>
    cases y with
    | name t =>
      have hst : s ≠ t := fun h => hxy (by rw [h])
      exact ⟨.obj [(s, wrapUp r (.int 1))], obj_wf hr, .inl ⟨hit _ _ _ (by simp [Pick.of, memberOf_one]),
        miss _ _ _ (by simp [Pick.of, memberOf_one, hst])⟩⟩
    | index n => exact ⟨slot n (wrapUp r' (.int 1)), slot_wf (hy (.index n) (by simp)) hr', .inr ⟨miss _ _ _ (arr_name _ _ _), hit _ _ _ (slot_of _ _)⟩⟩
    | all => exact ⟨.arr [wrapUp r' (.int 1)], ⟨by simp, hr', trivial⟩, .inr ⟨miss _ _ _ rfl, hit _ _ _ rfl⟩⟩
  | index n =>
    cases y with
    | name s => exact ⟨slot n (wrapUp r (.int 1)), slot_wf (hx (.index n) (by simp)) hr, .inl ⟨hit _ _ _ (slot_of _ _), miss _ _ _ (arr_name _ _ _)⟩⟩
    | index m =>
      have hnm : intToBytes n ≠ intToBytes m := fun h => hxy (by rw [intToBytes_inj h])
      exact ⟨.obj [(intToBytes n, wrapUp r (.int 1))], obj_wf hr, .inl ⟨hit _ _ _ (by simp [Pick.of, indexOf, memberOf_one]),
        miss _ _ _ (by simp [Pick.of, indexOf, memberOf_one, hnm])⟩⟩
    | all => exact ⟨.obj [(b! "x", wrapUp r' (.int 1))], obj_wf hr', .inr ⟨miss _ _ _ (by simp [Pick.of, indexOf, memberOf_one, odd n]), hit _ _ _ rfl⟩⟩
  | all =>
    cases y with
    | name s => exact ⟨.arr [wrapUp r (.int 1)], ⟨by simp, hr, trivial⟩, .inl ⟨hit _ _ _ rfl, miss _ _ _ rfl⟩⟩
    | index n => exact ⟨.obj [(b! "x", wrapUp r (.int 1))], obj_wf hr, .inl ⟨hit _ _ _ rfl, miss _ _ _ (by simp [Pick.of, indexOf, memberOf_one, odd n])⟩⟩
    | all => exact absurd rfl hxy

/-- Different paths: a document from which only one of the two selects anything. -/
theorem tell : ∀ (ps ps' : List Pick), ps ≠ ps' → (∀ z ∈ ps, Pick.Ok z) → (∀ z ∈ ps', Pick.Ok z) →
    ∃ d, d.WF ∧ ((picked ps d = [.int 1] ∧ picked ps' d = []) ∨ (picked ps d = [] ∧ picked ps' d = [.int 1]))
  | [], [], h, _, _ => absurd rfl h
  | [], y :: r', _, _, _ => ⟨.int 1, by simp [V.WF], .inl ⟨rfl, by rw [picked, picked_scalar]; rfl⟩⟩
  | x :: r, [], _, _, _ => ⟨.int 1, by simp [V.WF], .inr ⟨by rw [picked, picked_scalar]; rfl, rfl⟩⟩
  | x :: r, y :: r', h, hx, hy => by
    by_cases hxy : x = y
    · subst hxy
      obtain ⟨d, hd, h2⟩ := tell r r' (fun h' => h (by rw [h'])) (fun z hz => hx z (by simp [hz])) (fun z hz => hy z (by simp [hz]))
      refine ⟨wrapUp [x] d, wrapUp_wf (fun z hz => hx z (by simp only [List.mem_singleton] at hz; simp [hz])) hd, ?_⟩
      rw [show x :: r = [x] ++ r from rfl, show x :: r' = [x] ++ r' from rfl, picked_wrapUp, picked_wrapUp]
      exact h2
    · exact tell_first x y hxy r r' hx hy

theorem reads_ok {q : Path} {ps : List Pick} (h : All2 ReadsPick q ps) : ∀ z ∈ ps, Pick.Ok z := by
  intro z hz
  obtain ⟨s, _, hs⟩ := h.mem_right hz
  cases hs <;> trivial

end JP
