import Verif.Spec.Work
import Verif.Proof.Ways
import Verif.Proof.Api
/-!
Counting the orders executed, for C70.
-/
namespace JP
open Spec

theorem structsm_eq : ∀ kvs : List (Bytes × V), structsm kvs = ((kvs.map Prod.snd).map structs).sum
  | [] => rfl
  | (_, v) :: r => by simp only [structsm, structsm_eq r, List.map_cons, List.sum_cons]

theorem structss_eq : ∀ xs : List V, structss xs = (xs.map structs).sum
  | [] => rfl
  | v :: r => by simp only [structss, structss_eq r, List.map_cons, List.sum_cons]

mutual
theorem preOrder_length : ∀ {v : V} {l : List V}, PreOrder v l → l.length = structs v
  | _, _, .arr xs l h => by rw [List.length_cons, preOrders_length h, structs, structss_eq xs, Nat.add_comm]
  | _, _, .obj kvs vs l hp h => by
    rw [List.length_cons, preOrders_length h, structs, structsm_eq, (hp.map structs).sum_nat, Nat.add_comm]
  | _, _, .other v h => by cases v <;> first | rfl | cases h
theorem preOrders_length : ∀ {vs l : List V}, PreOrders vs l → l.length = (vs.map structs).sum
  | _, _, .nil => rfl
  | _, _, .cons v vs l l' h h' => by
    rw [List.length_append, preOrder_length h, preOrders_length h', List.map_cons, List.sum_cons]
end

theorem children_length {v : V} {l : List V} (h : Children v l) : l.length = kids v := by
  cases h with
  | arr xs => rfl
  | obj kvs l h => rw [h.length_eq, List.length_map]; rfl
  | other v h => cases v <;> first | rfl | cases h

theorem stepping_length {ord : Ord} (hv : ord.Valid) : ∀ (vs : List V) (k : Nat), (stepping ord k vs).length = (vs.map kids).sum
  | [], _ => rfl
  | v :: r, k => by
    rw [stepping, List.length_append, children_length (children_spec hv [k] v), stepping_length hv r (k + 1), List.map_cons,
      List.sum_cons]

theorem visited_length (l : List V) : (visited l).length = max 1 l.length := by
  unfold visited
  cases l with
  | nil => rfl
  | cons a l => simp

theorem visitCount_eq {oracle : Oracle} (hv : oracle.Valid) (s : Step) (out : GoSlice) (t : Nat) :
    visitCount oracle s out t = rounds s out.elems := by
  unfold visitCount rounds
  by_cases he : out.elems = []
  · rw [if_pos (by rw [he]; rfl), if_pos he]
  · rw [if_neg (by rwa [List.isEmpty_iff]), if_neg he, visited_length]
    congr 1
    have hnest : s.op ≠ .filter → (walker (oracle t) 0 out.elems).length = (out.elems.map (looksAt s)).sum := by
      intro h
      rw [preOrders_length (walker_spec (hv t) out.elems 0)]
      congr 1
      refine List.map_congr_left fun v _ => ?_
      unfold looksAt
      rw [if_neg h]
    split
    · next h =>
      rw [stepping_length (hv t)]
      congr 1
      refine List.map_congr_left fun v _ => ?_
      unfold looksAt
      rw [if_pos h]
    · next h => exact hnest h

theorem loops_eq (op : Op) : loops op = Op.looks op := by cases op <;> rfl

theorem stepCost_eq {oracle : Oracle} (hv : oracle.Valid) (s : Step) (out : GoSlice) (t : Nat) :
    stepCost oracle s out t s.size = stepOrders s out.elems := by
  unfold stepCost stepOrders
  rw [loops_eq, visitCount_eq hv]
  by_cases h : Op.looks s.op = true
  · rw [if_pos h, if_pos h]
    congr 2
    rw [← loops_eq] at h
    unfold Step.size
    generalize s.op = op at h
    cases op <;> first | rfl | cases h
  · rw [if_neg h, if_neg h]
    rw [← loops_eq] at h
    unfold Step.size
    generalize s.op = op at h
    cases op <;> first | rfl | exact absurd rfl h

theorem cost_snoc {env : Env} {oracle : Oracle} {root : V} (s : Step) : ∀ (q : Path) (out : GoSlice) (t : Nat),
    cost env oracle root (q ++ [s]) out t = cost env oracle root q out t +
      costThen (fun x => stepCost oracle s x.1 x.2 s.size) (evalSteps env oracle root q out t)
  | [], out, t => by
    simp only [List.nil_append, cost, evalSteps, costThen, Nat.zero_add]
    cases evalStep env oracle root s out t <;> rfl
  | st :: r, out, t => by
    simp only [List.cons_append, cost, evalSteps]
    cases evalStep env oracle root st out t with
    | ok x =>
      obtain ⟨o, t1⟩ := x
      simp only [costThen, Res.bind_ok]
      rw [cost_snoc s r o t1]
      cases evalSteps env oracle root r o t1 <;> simp only [costThen] <;> omega
    | _ => rfl

/-! ### A bound -/

theorem times_length {root : V} {k n w : Nat} {m : Nat → Nat} (hm : WaysLe k n w m) {l : List V} (h : Times root m l) :
    l.length ≤ count root * (w * (height root + 1) ^ (k - 1)) := by
  obtain ⟨places, h1, h2⟩ := h
  rw [← Spec.All2.length h1, ← allPlaces_length]
  refine length_le_of_count (fun pl hpl => ?_) (fun pl hpl => Nat.le_trans (h2 pl) ?_)
  · obtain ⟨v, _, h⟩ := Spec.All2.mem_left h1 hpl
    exact h.mem
  · obtain ⟨v, _, h⟩ := Spec.All2.mem_left h1 hpl
    unfold WaysLe at hm
    split at hm
    · next hd =>
      refine Nat.le_trans (hm _) ?_
      rw [hd, Nat.zero_sub, Nat.pow_zero, Nat.mul_one]
      split
      · exact Nat.le_refl _
      · exact Nat.zero_le _
    · exact Nat.le_trans (hm _) (Nat.mul_le_mul_left _ (Nat.pow_le_pow_left (Nat.succ_le_succ (at_height h)) _))

theorem foldl_width_le : ∀ (q : Path) (w : Nat), (∀ s ∈ q, 1 ≤ width s) → w ≤ q.foldl (fun w s => w * width s) w
  | [], w, _ => Nat.le_refl _
  | s :: r, w, h => by
    rw [List.foldl_cons]
    exact Nat.le_trans (Nat.le_mul_of_pos_right _ (h s (by simp))) (foldl_width_le r _ fun s hs => h s (by simp [hs]))

theorem descends_cons (s : Step) (r : Path) : descents (s :: r) = (if Op.descends s.op then 1 else 0) + descents r := by
  unfold descents
  rw [List.filter_cons]
  split <;> simp <;> omega

/-- The bound on the number of values at which a step looks. -/
def lookBound (root : V) (w k : Nat) : Nat := count root * (w * (height root + 1) ^ (k - 1))

theorem lookBound_mono {root : V} {w w' k k' : Nat} (hw : w ≤ w') (hk : k ≤ k') : lookBound root w k ≤ lookBound root w' k' :=
  Nat.mul_le_mul_left _ (Nat.mul_le_mul hw (Nat.pow_le_pow_right (by omega) (by omega)))

theorem lookBound_pos {root : V} {w k : Nat} (hw : 1 ≤ w) : 1 ≤ lookBound root w k :=
  Nat.mul_pos (count_pos root) (Nat.mul_pos hw (Nat.pow_pos (by omega)))

theorem visitCount_le {oracle : Oracle} (hv : oracle.Valid) {root : V} (hr : root.WF) {s : Step} (hs : loops s.op = true)
    {k n w : Nat} {m : Nat → Nat} (hm : WaysLe k n w m) (hw : 1 ≤ w) {out : GoSlice}
    (ho : Times root m out.elems ∨ out.elems = [.null]) (t : Nat) :
    visitCount oracle s out t ≤ lookBound root w (k + if Op.descends s.op then 1 else 0) := by
  unfold visitCount
  split
  · exact Nat.zero_le _
  · rw [visited_length]
    refine Nat.max_le.2 ⟨lookBound_pos hw, ?_⟩
    rcases ho with ho | ho
    · split
      · next hop =>
        rw [hop]
        obtain ⟨parts, h1, h2⟩ := stepping_spec (hv t) out.elems 0
        have h3 : All2 (PicksW (lvl 1 1)) out.elems parts := by
          have hwf := ho.wf hr
          clear h2 ho
          generalize out.elems = l at h1 hwf
          induction h1 with
          | nil => exact .nil
          | cons h1 _ ih => exact .cons (picks_children (hwf _ (by simp)) h1).levels (ih (fun v hv => hwf v (by simp [hv])))
        have h4 := ho.picks h3
        rw [← h2] at h4
        have h5 := onward_le hm ⟨.wild, []⟩
        rw [show onward ⟨.wild, []⟩ m = conv m (lvl 1 1) from funext (onward_one rfl m), show width ⟨.wild, []⟩ = 1 from rfl, Nat.mul_one] at h5
        exact times_length h5 h4
      · next hop =>
        have hd : Op.descends s.op = true := by
          generalize s.op = op at hs hop
          cases op <;> first | rfl | exact absurd rfl hop | cases hs
        rw [hd]
        have h4 := ho.walk hr (walker_spec (hv t) out.elems 0)
        have h5 := onward_le hm ⟨.nestFilter, []⟩
        rw [show onward ⟨.nestFilter, []⟩ m = conv m (fun _ => 1) from rfl, show width ⟨.nestFilter, []⟩ = 1 from rfl, Nat.mul_one] at h5
        exact times_length h5 h4
    · rw [ho]
      split <;> exact Nat.zero_le _

theorem stepCost_le {oracle : Oracle} (hv : oracle.Valid) {root : V} (hr : root.WF) {s : Step}
    {k n w B : Nat} {m : Nat → Nat} (hm : WaysLe k n w m) (hw : 1 ≤ w) {out : GoSlice}
    (ho : Times root m out.elems ∨ out.elems = [.null]) (t : Nat)
    (hB : lookBound root w (k + if Op.descends s.op then 1 else 0) ≤ B) :
    stepCost oracle s out t s.size ≤ s.size * B := by
  have hpos : 1 ≤ B := Nat.le_trans (lookBound_pos hw) hB
  unfold stepCost
  split
  · next h =>
    have h1 := Nat.le_trans (visitCount_le hv hr h hm hw ho t) hB
    have h2 : 1 ≤ s.size := by unfold Step.size; omega
    obtain ⟨j, hj⟩ := Nat.exists_eq_add_of_le h2
    rw [hj, Nat.add_sub_cancel_left, Nat.add_mul, Nat.one_mul, Nat.mul_comm j B]
    exact Nat.add_le_add hpos (Nat.mul_le_mul_right _ h1)
  · exact Nat.le_mul_of_pos_right _ hpos

theorem cost_le {env : Env} {oracle : Oracle} (hv : oracle.Valid) {root : V} (hr : root.WF) : ∀ (q : Path) (k n w : Nat)
    (m : Nat → Nat) (out : GoSlice) (t : Nat), WaysLe k n w m → 1 ≤ w → (∀ s ∈ q, 1 ≤ width s) →
    (Times root m out.elems ∨ out.elems = [.null]) →
    cost env oracle root q out t ≤ Path.size q * lookBound root (q.foldl (fun w s => w * width s) w) (k + descents q)
  | [], _, _, _, _, _, _, _, _, _, _ => Nat.zero_le _
  | s :: r, k, n, w, m, out, t, hm, hw, hq, ho => by
    have hs := hq s (by simp)
    have hq' : ∀ s ∈ r, 1 ≤ width s := fun s hs => hq s (by simp [hs])
    rw [cost, Path.size, Nat.add_mul]
    have hd : k + descents (s :: r) = k + (if Op.descends s.op then 1 else 0) + descents r := by rw [descends_cons]; omega
    rw [hd, List.foldl_cons]
    have hw' : 1 ≤ w * width s := Nat.mul_pos hw hs
    refine Nat.add_le_add (stepCost_le hv hr hm hw ho t (lookBound_mono ?_ (Nat.le_add_right _ _))) ?_
    · exact Nat.le_trans (Nat.le_mul_of_pos_right _ hs) (foldl_width_le r _ hq')
    · cases he : evalStep env oracle root s out t with
      | ok x =>
        obtain ⟨o, t1⟩ := x
        refine cost_le hv hr r _ (n + 1) _ _ o t1 (onward_le hm s) hw' hq' ?_
        rcases evalSteps_weigh (env := env) hv hr [s] m True out t o t1 (by rcases ho with h | h; exact .inl h; exact .inr ⟨trivial, h⟩)
          (by simp only [evalSteps, he, Res.bind_ok]) with h | ⟨_, h⟩
        · exact .inl h
        · exact .inr h
      | _ => exact Nat.zero_le _

theorem GSteps.width_pos {valid : Bytes → Bool} {ts : List Token} {q : Path} (h : GSteps valid ts q) : ∀ s ∈ q, 1 ≤ width s := by
  induction h with
  | nil => simp
  | cons _ _ _ _ h _ ih =>
    intro s hs
    rcases List.mem_cons.1 hs with rfl | hs
    · exact GStep.width_pos h
    · exact ih s hs

theorem IsCompiled.width_pos {env : Env} {p : JSONPath} {q : Path} (h : IsCompiled env p q) : ∀ s ∈ q, 1 ≤ width s := by
  obtain ⟨⟨t, h1, h2⟩, _⟩ := h
  obtain ⟨ts, _, us, h3, _⟩ := parsePath_iff.1 h2
  exact GSteps.width_pos h3

theorem IsCompiled.cost_le {env : Env} {oracle : Oracle} (hv : oracle.Valid) {root : V} (hr : root.WF) {p : JSONPath} {q : Path}
    (h : IsCompiled env p q) : cost env oracle root q (some [root]) 0 ≤
      Path.size q * lookBound root (widths q) (descents q) := by
  have := JP.cost_le (env := env) hv hr q 0 0 1 (fun d => if d = 0 then 1 else 0) (some [root]) 0
    (by unfold WaysLe; rw [if_pos rfl]; exact fun d => Nat.le_refl _) (Nat.le_refl _) h.width_pos
    (.inl ⟨[[]], .cons (.here _) .nil, fun pl => by cases pl <;> simp⟩)
  rwa [Nat.zero_add] at this

/-! ### What the machine takes -/

theorem runFuel_le {env : Env} {oracle : Oracle} {prog : Program} {root : V} {s : MState} {m n : Nat} (h : m ≤ n)
    (hm : runFuel env oracle prog root m s ≠ none) : runFuel env oracle prog root n s ≠ none := by
  induction h with
  | refl => exact hm
  | step _ ih =>
    obtain ⟨r, hr⟩ := Option.ne_none_iff_exists'.1 ih
    rw [runFuel_mono _ _ hr]
    exact nofun

theorem Spec.EndsWithin.mono {env : Env} {oracle : Oracle} {p : JSONPath} {root : V} {m n : Nat} (h : m ≤ n)
    (hm : EndsWithin env oracle p root m) : EndsWithin env oracle p root n := runFuel_le (Nat.succ_le_succ h) hm

theorem Spec.Takes.unique {env : Env} {oracle : Oracle} {p : JSONPath} {root : V} {m n : Nat} (hm : Takes env oracle p root m)
    (hn : Takes env oracle p root n) : m = n := by
  rcases Nat.lt_trichotomy m n with h | h | h
  · exact absurd hn.2 (runFuel_le h hm.1)
  · exact h
  · exact absurd hm.2 (runFuel_le h hn.1)

theorem IsCompiled.size {env : Env} {p : JSONPath} {q : Path} (h : IsCompiled env p q) : p.prog.orders.length = Path.size q := by
  obtain ⟨⟨t, h1, h2⟩, _⟩ := h
  obtain ⟨path, h3, _, _, _, h4, _⟩ := Compile_ok h1
  rw [h2] at h3
  cases h3
  exact h4

theorem IsCompiled.within {env : Env} {oracle : Oracle} {root : V} {p : JSONPath} {q : Path} (h : IsCompiled env p q) :
    EndsWithin env oracle p root (cost env oracle root q (some [root]) 0) := by
  obtain ⟨⟨t, h1, h2⟩, hsz⟩ := h
  obtain ⟨path, h3, hw, h4, _⟩ := Compile_ok h1
  rw [h2] at h3
  cases h3
  unfold EndsWithin
  rw [runFuel_compile env oracle root q p.prog hw h4 hsz]
  exact nofun

theorem IsCompiled.takes {env : Env} {oracle : Oracle} {root : V} {p : JSONPath} {q : Path} (h : IsCompiled env p q)
    {out : GoSlice} (he : Eval env oracle p root = some (.ok out)) :
    Takes env oracle p root (cost env oracle root q (some [root]) 0) := by
  refine ⟨h.within, ?_⟩
  rw [h.eval oracle root] at he
  simp only [Option.some.injEq] at he
  obtain ⟨⟨t, h1, h2⟩, hsz⟩ := h
  obtain ⟨path, h3, hw, h4, _⟩ := Compile_ok h1
  rw [h2] at h3
  cases h3
  exact runFuel_compile_lt env oracle root q p.prog hw h4 hsz he

theorem widths_one {q : Path} (h : ∀ s ∈ q, Op.isUnion s.op = false) : widths q = 1 := by
  unfold widths
  suffices ∀ w, q.foldl (fun w s => w * width s) w = w from this 1
  induction q with
  | nil => exact fun _ => rfl
  | cons s r ih =>
    intro w
    rw [List.foldl_cons, ih (fun s hs => h s (by simp [hs])), show width s = 1 by unfold width; rw [h s (by simp)]; rfl, Nat.mul_one]

end JP
