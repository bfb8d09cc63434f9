import Verif.Proof.Locate
import Verif.Proof.SimPath
import Verif.Spec.Ways
import Verif.Proof.Written
import Verif.Proof.Select
/-!
Counting how often a place is selected, for C68.
-/
namespace JP
open Spec

/-! ### Sums -/

theorem sumTo_mono {f g : Nat → Nat} {n : Nat} (h : ∀ j, j ≤ n → f j ≤ g j) : sumTo f n ≤ sumTo g n := by
  induction n with
  | zero => exact h 0 (by omega)
  | succ n ih => exact Nat.add_le_add (ih fun j hj => h j (by omega)) (h _ (by omega))

theorem sumTo_congr {f g : Nat → Nat} {n : Nat} (h : ∀ j, j ≤ n → f j = g j) : sumTo f n = sumTo g n :=
  Nat.le_antisymm (sumTo_mono fun j hj => (h j hj).le) (sumTo_mono fun j hj => (h j hj).ge)

theorem sumTo_add {f g : Nat → Nat} {n : Nat} : sumTo (fun j => f j + g j) n = sumTo f n + sumTo g n := by
  induction n with
  | zero => rfl
  | succ n ih => simp only [sumTo, ih]; omega

theorem sumTo_single {f : Nat → Nat} {n j : Nat} (h : j ≤ n) : f j ≤ sumTo f n := by
  induction n with
  | zero => cases Nat.le_zero.1 h; exact Nat.le_refl _
  | succ n ih =>
    rcases Nat.lt_or_ge j (n + 1) with h1 | h1
    · exact Nat.le_trans (ih (by omega)) (Nat.le_add_right _ _)
    · cases Nat.le_antisymm h h1
      exact Nat.le_add_left _ _

theorem sumTo_zero {f : Nat → Nat} {n : Nat} (h : ∀ j, j ≤ n → f j = 0) : sumTo f n = 0 := by
  induction n with
  | zero => exact h 0 (by omega)
  | succ n ih => simp only [sumTo, ih fun j hj => h j (by omega), h (n + 1) (by omega)]

theorem sumTo_mul {f : Nat → Nat} {n w : Nat} : sumTo (fun j => f j * w) n = sumTo f n * w := by
  induction n with
  | zero => rfl
  | succ n ih => simp only [sumTo, ih, Nat.add_mul]

/-- First so many ways, then so many. -/
def conv (m W : Nat → Nat) (d : Nat) : Nat := sumTo (fun j => m j * W (d - j)) d

/-- So many ways down to one level. -/
def lvl (n w : Nat) (d : Nat) : Nat := if d = n then w else 0

theorem conv_lvl_zero (m : Nat → Nat) (w d : Nat) : conv m (lvl 0 w) d = m d * w := by
  unfold conv
  cases d with
  | zero => rfl
  | succ d =>
    simp only [sumTo]
    rw [sumTo_zero, show lvl 0 w (d + 1 - (d + 1)) = w by simp [lvl]]
    · omega
    · intro j hj
      rw [show lvl 0 w (d + 1 - j) = 0 by unfold lvl; exact if_neg (by omega)]; rfl

theorem conv_lvl_one_zero (m : Nat → Nat) (w : Nat) : conv m (lvl 1 w) 0 = 0 := by simp [conv, sumTo, lvl]

theorem conv_lvl_one (m : Nat → Nat) (w d : Nat) : conv m (lvl 1 w) (d + 1) = m d * w := by
  unfold conv
  simp only [sumTo]
  rw [show lvl 1 w (d + 1 - (d + 1)) = 0 by simp [lvl], Nat.mul_zero, Nat.add_zero]
  cases d with
  | zero => simp [sumTo, lvl]
  | succ d =>
    simp only [sumTo]
    rw [sumTo_zero, show lvl 1 w (d + 1 + 1 - (d + 1)) = w by unfold lvl; exact if_pos (by omega)]
    · omega
    · intro j hj
      rw [show lvl 1 w (d + 1 + 1 - j) = 0 by unfold lvl; exact if_neg (by omega)]; rfl

/-! ### Places with multiplicity -/

/-- The values are found at places below `v`, at each at most so many times. -/
def PicksW (W : Nat → Nat) (v : V) (us : List V) : Prop :=
  ∃ ps, Found v ps us ∧ ∀ p, ps.count p ≤ W p.length

theorem PicksW.none {W : Nat → Nat} {v : V} : PicksW W v [] := ⟨[], .nil, by simp⟩

theorem PicksW.append {W W' : Nat → Nat} {v : V} {us us' : List V} (h : PicksW W v us) (h' : PicksW W' v us') :
    PicksW (fun d => W d + W' d) v (us ++ us') := by
  obtain ⟨ps, h1, h2⟩ := h
  obtain ⟨ps', h1', h2'⟩ := h'
  exact ⟨ps ++ ps', Spec.All2.append h1 h1', fun p => by rw [List.count_append]; exact Nat.add_le_add (h2 p) (h2' p)⟩

theorem PicksW.mono {W W' : Nat → Nat} (hW : ∀ d, W d ≤ W' d) {v : V} {us : List V} (h : PicksW W v us) : PicksW W' v us := by
  obtain ⟨ps, h1, h2⟩ := h
  exact ⟨ps, h1, fun p => Nat.le_trans (h2 p) (hW _)⟩

theorem Picks.levels {n : Nat} {v : V} {us : List V} (h : Picks (Levels n) v us) : PicksW (lvl n 1) v us := by
  obtain ⟨ps, h1, h2, h3⟩ := h
  refine ⟨ps, h2, fun p => ?_⟩
  unfold lvl
  split
  · exact List.nodup_iff_count.1 h1 p
  · next hn => rw [List.count_eq_zero.2 fun hp => hn (h3 p hp)]

theorem Picks.any {P : Place → Prop} {v : V} {us : List V} (h : Picks P v us) : PicksW (fun _ => 1) v us := by
  obtain ⟨ps, h1, h2, _⟩ := h
  exact ⟨ps, h2, fun p => List.nodup_iff_count.1 h1 p⟩

theorem count_map_append (p q : Place) : ∀ ps : List Place,
    (ps.map (p ++ ·)).count q = if p <+: q then ps.count (q.drop p.length) else 0
  | [] => by simp
  | r :: ps => by
    rw [List.map_cons, List.count_cons, count_map_append p q ps]
    by_cases h : p <+: q
    · obtain ⟨s, rfl⟩ := h
      rw [if_pos (List.prefix_append _ _), if_pos (List.prefix_append _ _), List.drop_left, List.count_cons]
      congr 1
      simp only [beq_iff_eq, List.append_cancel_left_eq]
    · rw [if_neg h, if_neg h, if_neg]
      simp only [beq_iff_eq]
      rintro rfl
      exact h (List.prefix_append _ _)

theorem found_below {root v : V} {p : Place} (ha : At root p v) {ps : List Place} {us : List V} (hf : Found v ps us) :
    Found root (ps.map (p ++ ·)) us := by
  unfold Found at hf ⊢
  induction hf with
  | nil => exact .nil
  | cons h _ ih => exact .cons (ha.trans h) ih

theorem times_flatten {W : Nat → Nat} {root : V} : ∀ {places : List Place} {vs : List V} {uss : List (List V)},
    Found root places vs → All2 (PicksW W) vs uss →
    ∃ qs, Found root qs uss.flatten ∧
      ∀ q, qs.count q ≤ sumTo (fun j => places.count (q.take j) * W (q.length - j)) q.length := by
  intro places vs uss hf hp
  unfold Found at hf
  induction hf generalizing uss with
  | nil => cases hp; exact ⟨[], .nil, by simp⟩
  | @cons p v places vs h _ ih =>
    cases hp with
    | @cons _ us _ uss h1 h2 =>
      obtain ⟨qs, h3, h4⟩ := ih h2
      obtain ⟨ps, h5, h6⟩ := h1
      refine ⟨ps.map (p ++ ·) ++ qs, Spec.All2.append (found_below h h5) h3, fun q => ?_⟩
      rw [List.count_append, count_map_append]
      have e : sumTo (fun j => (p :: places).count (q.take j) * W (q.length - j)) q.length =
          sumTo (fun j => places.count (q.take j) * W (q.length - j)) q.length +
          sumTo (fun j => (if p == q.take j then 1 else 0) * W (q.length - j)) q.length := by
        rw [← sumTo_add]
        refine sumTo_congr fun j _ => ?_
        rw [List.count_cons, Nat.add_mul]
      rw [e, Nat.add_comm]
      refine Nat.add_le_add (h4 q) ?_
      split
      · next hpre =>
        obtain ⟨r, rfl⟩ := hpre
        refine Nat.le_trans ?_ (sumTo_single (j := p.length) (by simp))
        simp only [List.take_left, List.drop_left, beq_self_eq_true, if_true, Nat.one_mul, List.length_append, Nat.add_sub_cancel_left]
        exact h6 r
      · exact Nat.zero_le _

/-- The values are found at places, at each at most so many times. -/
abbrev Times (root : V) (m : Nat → Nat) (vs : List V) : Prop := PicksW m root vs

theorem Times.wf {root : V} (hw : root.WF) {m : Nat → Nat} {vs : List V} (h : Times root m vs) : ∀ v ∈ vs, v.WF := by
  obtain ⟨ps, hf, _⟩ := h
  exact found_wf hw hf

theorem Times.picks {root : V} {m W : Nat → Nat} {vs : List V} {uss : List (List V)} (h : Times root m vs)
    (hp : All2 (PicksW W) vs uss) : Times root (conv m W) uss.flatten := by
  obtain ⟨ps, hf, hm⟩ := h
  obtain ⟨qs, h1, h2⟩ := times_flatten hf hp
  refine ⟨qs, h1, fun q => Nat.le_trans (h2 q) (sumTo_mono fun j hj => Nat.mul_le_mul_right _ ?_)⟩
  have := hm (q.take j)
  rwa [List.length_take, Nat.min_eq_left hj] at this

/-! ### What steps pick -/

/-- What a step adds to a result set, which it may have emptied before. -/
def AddsW (W : Nat → Nat) (v : V) (acc out : GoSlice) : Prop :=
  ∃ us, PicksW W v us ∧ (out.elems = acc.elems ++ us ∨ out.elems = us)

theorem AddsAt.weigh {n : Nat} {v : V} {acc out : GoSlice} (h : AddsAt (Levels n) v acc out) : AddsW (lvl n 1) v acc out := by
  rcases h with ⟨us, h1, h2⟩ | h
  · exact ⟨us, h1.levels, .inl h2⟩
  · exact ⟨[], .none, .inr h⟩

theorem AddsW.mono {W W' : Nat → Nat} (hW : ∀ d, W d ≤ W' d) {v : V} {acc out : GoSlice} (h : AddsW W v acc out) : AddsW W' v acc out := by
  obtain ⟨us, h1, h2⟩ := h
  exact ⟨us, h1.mono hW, h2⟩

theorem AddsW.trans {W W' : Nat → Nat} {v : V} {acc mid out : GoSlice} (h : AddsW W v acc mid) (h' : AddsW W' v mid out) :
    AddsW (fun d => W d + W' d) v acc out := by
  obtain ⟨us, h1, h2⟩ := h
  obtain ⟨us', h1', h2'⟩ := h'
  rcases h2' with h2' | h2'
  · rcases h2 with h2 | h2
    · exact ⟨us ++ us', h1.append h1', .inl (by rw [h2', h2, List.append_assoc])⟩
    · exact ⟨us ++ us', h1.append h1', .inr (by rw [h2', h2])⟩
  · exact ⟨us', h1'.mono fun d => Nat.le_add_left _ _, .inr h2'⟩

theorem unionByKeys_adds {env : Env} {src : V} (hw : src.WF) : ∀ (sels : List V) (acc out : GoSlice),
    unionByKeys env acc src sels = .ok out → AddsW (lvl 1 sels.length) src acc out
  | [], acc, out, h => by cases h; exact ⟨[], .none, .inl (by simp)⟩
  | sel :: r, acc, out, h => by
    unfold unionByKeys at h
    split at h
    · exact (unionByKeys_adds hw r acc out h).mono fun d => by unfold lvl; split <;> simp
    · cases hs : valsByKey env acc src sel true with
      | ok mid =>
        rw [hs] at h
        exact ((valsByKey_adds hw hs).weigh.trans (unionByKeys_adds hw r mid out h)).mono fun d => by
          unfold lvl; split <;> simp; omega
      | err e => rw [hs] at h; cases h
      | panic e => rw [hs] at h; cases h
      | stuck => rw [hs] at h; cases h

theorem addsW_parts {W : Nat → Nat} {v : V} {acc out : GoSlice} (h : AddsW W v acc out) {l0 : List V} {pre : List (List V)}
    (hp : All2 (PicksW W) l0 pre) (he : acc.elems = pre.flatten) :
    ∃ uss, All2 (PicksW W) (l0 ++ [v]) uss ∧ out.elems = uss.flatten := by
  obtain ⟨us, h1, h2 | h2⟩ := h
  · exact ⟨pre ++ [us], hp.append (.cons h1 .nil), by rw [h2, he]; simp⟩
  · refine ⟨(l0.map fun _ => []) ++ [us], Spec.All2.append ?_ (.cons h1 .nil), ?_⟩
    · have := Spec.All2.ofMap (R := PicksW W) id (fun _ => []) l0 (fun _ _ => .none)
      simpa using this
    · rw [h2, List.flatten_append, List.flatten_eq_nil_iff.2]
      · simp
      · intro x hx; obtain ⟨_, _, rfl⟩ := List.mem_map.1 hx; rfl

theorem applySelection_weigh {W : Nat → Nat} {f : Nat → V → GoSlice → Res RErr GoSlice} :
    ∀ (l : List V) (k : Nat) (acc out : GoSlice) (l0 : List V) (pre : List (List V)),
    (∀ v ∈ l, ∀ k acc out, f k v acc = .ok out → AddsW W v acc out) →
    All2 (PicksW W) l0 pre → acc.elems = pre.flatten →
    applySelection f k acc l = .ok out → ∃ uss, All2 (PicksW W) (l0 ++ l) uss ∧ out.elems = uss.flatten
  | [], k, acc, out, l0, pre, _, hp, he, h => by
    cases h
    exact ⟨pre, by simpa using hp, he⟩
  | v :: r, k, acc, out, l0, pre, hf, hp, he, h => by
    unfold applySelection at h
    cases hv : f k v acc with
    | ok acc1 =>
      rw [hv] at h
      obtain ⟨uss, h1, h2⟩ := addsW_parts (hf v (by simp) _ _ _ hv) hp he
      have := applySelection_weigh r (k + 1) acc1 out (l0 ++ [v]) uss (fun w hw => hf w (by simp [hw])) h1 h2 h
      simpa using this
    | err e => rw [hv] at h; cases h
    | panic e => rw [hv] at h; cases h
    | stuck => rw [hv] at h; cases h

theorem visit_weigh {env : Env} {ord : Ord} (hv : ord.Valid) {s : Step} {dot : V} {vs : List V} (hl : vs.length = s.args.length)
    {acc out : GoSlice} (hw : dot.WF) (h : visit env ord s.op dot vs acc = .ok out) :
    AddsW (lvl (visitLevels s.op) (width s)) dot acc out := by
  cases hu : Op.isUnion s.op with
  | false =>
    have : width s = 1 := by unfold width; rw [hu]; rfl
    rw [this]
    exact (visit_adds hv hu hw h).weigh
  | true =>
    have hwd : width s = vs.length := by unfold width; rw [hu, hl]; rfl
    rw [hwd]
    generalize s.op = op at h hu
    unfold visit at h
    split at h
    · cases hu
    · cases hu
    · cases hu
    · cases hu
    · exact unionByKeys_adds hw _ _ _ h
    · cases hu
    · cases h

theorem visits_weigh {env : Env} {oracle : Oracle} (hv : oracle.Valid) {root : V} {s : Step} :
    ∀ (l : List V) (acc : GoSlice) (t : Nat) (out : GoSlice) (t' : Nat) (l0 : List V) (pre : List (List V)),
    (∀ v ∈ l, v.WF) → All2 (PicksW (lvl (visitLevels s.op) (width s))) l0 pre → acc.elems = pre.flatten →
    visits env oracle root s l acc t = .ok (out, t') →
    ∃ uss, All2 (PicksW (lvl (visitLevels s.op) (width s))) (l0 ++ l) uss ∧ out.elems = uss.flatten
  | [], acc, t, out, t', l0, pre, _, hp, he, h => by
    cases h
    exact ⟨pre, by simpa using hp, he⟩
  | v :: r, acc, t, out, t', l0, pre, hw, hp, he, h => by
    unfold visits at h
    cases ha : evalVals env oracle root v s.args t with
    | ok x =>
      obtain ⟨vs, t1⟩ := x
      rw [ha] at h
      simp only [Res.bind_ok] at h
      cases hvis : visit env (oracle t1) s.op v vs acc with
      | ok acc1 =>
        rw [hvis] at h
        obtain ⟨uss, h1, h2⟩ := addsW_parts (visit_weigh (hv t1) (evalVals_length env oracle root ha) (hw v (by simp)) hvis) hp he
        have := visits_weigh hv r acc1 _ out t' (l0 ++ [v]) uss (fun w h => hw w (by simp [h])) h1 h2 h
        simpa using this
      | err e => rw [hvis] at h; cases h
      | panic e => rw [hvis] at h; cases h
      | stuck => rw [hvis] at h; cases h
    | err e => rw [ha] at h; cases h
    | panic e => rw [ha] at h; cases h
    | stuck => rw [ha] at h; cases h

theorem Times.walk {root : V} (hw : root.WF) {m : Nat → Nat} {vs l : List V} (h : Times root m vs) (hp : PreOrders vs l) :
    Times root (conv m fun _ => 1) l := by
  obtain ⟨uss, h1, rfl⟩ := preOrders_picks hp (h.wf hw)
  exact h.picks (h1.mono fun _ _ h => h.any)

theorem picksW_null {n w : Nat} {us : List V} (h : PicksW (lvl n w) .null us) (hn : n = 0 → w = 1) :
    us = [] ∨ (n = 0 ∧ us = [.null]) := by
  obtain ⟨ps, hf, hl⟩ := h
  cases hf with
  | nil => exact .inl rfl
  | cons h1 h2 =>
    cases h1
    have h0 := hl []
    unfold lvl at h0
    rw [List.count_cons] at h0
    simp only [BEq.rfl, if_true, List.length_nil] at h0
    split at h0
    · next h =>
      have hn := hn h.symm
      subst hn
      cases h2 with
      | nil => exact .inr ⟨h.symm, rfl⟩
      | cons h3 _ =>
        cases h3
        rw [List.count_cons] at h0
        simp at h0
    · omega

theorem filter_width {s : Step} (h : visitLevels s.op = 0) : width s = 1 := by
  unfold visitLevels at h
  unfold width
  generalize s.op = op at h
  cases op <;> first | rfl | cases h

theorem loop_weigh {env : Env} {oracle : Oracle} (hv : oracle.Valid) {root root' : V} (hw : root'.WF) {s : Step}
    {m : Nat → Nat} {vals : List V} (h : Times root' m vals) {out : GoSlice} {t : Nat}
    {out' : GoSlice} {t' : Nat} (he : loop env oracle root s vals out t = .ok (out', t')) :
    Times root' (conv m (lvl (visitLevels s.op) (width s))) out'.elems ∨ (visitLevels s.op = 0 ∧ out'.elems = [.null]) := by
  unfold loop at he
  split at he
  · next h0 =>
    cases he
    rw [List.isEmpty_iff] at h0
    rw [h0]
    exact .inl .none
  · unfold visited at he
    split at he
    · obtain ⟨uss, h1, h2⟩ := visits_weigh hv _ _ _ _ _ [] [] (by simp [V.WF]) .nil rfl he
      cases h1 with
      | cons h1 h3 =>
        cases h3
        rw [h2]
        rcases picksW_null h1 filter_width with rfl | ⟨h4, rfl⟩
        · exact .inl .none
        · exact .inr ⟨h4, rfl⟩
    · obtain ⟨uss, h1, h2⟩ := visits_weigh hv _ _ _ _ _ [] [] (h.wf hw) .nil rfl he
      rw [h2]
      exact .inl (h.picks h1)

/-! ### One step -/

theorem onward_one {s : Step} (h : Op.descends s.op = false) (m : Nat → Nat) (d : Nat) : onward s m d = conv m (lvl 1 (width s)) d := by
  unfold onward conv
  refine sumTo_congr fun j _ => ?_
  unfold reach lvl
  rw [if_neg (by intro hop; rw [hop] at h; cases h), h]
  rfl

theorem onward_nest {s : Step} (h : Op.descends s.op = true) (m : Nat → Nat) (d : Nat) :
    onward s m d = conv (conv m fun _ => 1) (lvl (visitLevels s.op) (width s)) d := by
  by_cases hf : s.op = .nestFilter
  · rw [show visitLevels s.op = 0 by rw [hf]; rfl, conv_lvl_zero]
    rw [show width s = 1 by unfold width; rw [hf]; rfl, Nat.mul_one]
    unfold onward conv
    refine sumTo_congr fun j _ => ?_
    unfold reach
    rw [if_pos hf]
  · have hv : visitLevels s.op = 1 := by
      unfold visitLevels
      rw [if_neg]
      intro hc
      simp only [Bool.or_eq_true, beq_iff_eq] at hc
      rcases hc with hc | hc
      · rw [hc] at h; cases h
      · exact hf hc
    rw [hv]
    have hr : reach s = fun j => if j = 0 then 0 else width s := by
      funext j
      unfold reach
      rw [if_neg hf, h]
      rfl
    unfold onward
    rw [hr]
    cases d with
    | zero => rw [conv_lvl_one_zero]; rfl
    | succ d =>
      rw [conv_lvl_one]
      unfold conv
      rw [← sumTo_mul]
      show sumTo _ d + _ = _
      simp only [if_true, Nat.sub_self, Nat.mul_zero, Nat.add_zero, Nat.mul_one]
      refine sumTo_congr fun j hj => ?_
      rw [if_neg (by omega)]

theorem evalStep_weigh {env : Env} {oracle : Oracle} (hv : oracle.Valid) {root root' : V} (hw : root'.WF) {s : Step}
    {m : Nat → Nat} {out : GoSlice} (h : Times root' m out.elems) {t : Nat} {out' : GoSlice} {t' : Nat}
    (he : evalStep env oracle root s out t = .ok (out', t')) :
    Times root' (onward s m) out'.elems ∨ ((s.op == .filter || s.op == .nestFilter) = true ∧ out'.elems = [.null]) := by
  have hsel : ∀ (f : Nat → V → GoSlice → Res RErr GoSlice) (out1 : GoSlice) (w : Nat),
      (∀ v ∈ out.elems, ∀ k acc out, f k v acc = .ok out → AddsW (lvl 1 w) v acc out) →
      applySelection f 0 (some []) out.elems = .ok out1 → Times root' (conv m (lvl 1 w)) out1.elems := by
    intro f out1 w hf h1
    obtain ⟨uss, h2, h3⟩ := applySelection_weigh _ _ _ _ [] [] hf .nil rfl h1
    rw [h3]
    exact h.picks h2
  have one : ∀ {vs}, Op.descends s.op = false → Times root' (conv m (lvl 1 (width s))) vs → Times root' (onward s m) vs := by
    intro vs h1 h2
    rwa [show onward s m = conv m (lvl 1 (width s)) from funext (onward_one h1 m)]
  have hwalk : Op.descends s.op = true → loop env oracle root s (walker (oracle t) 0 out.elems) out (t + 1) = .ok (out', t') →
      Times root' (onward s m) out'.elems ∨ ((s.op == .filter || s.op == .nestFilter) = true ∧ out'.elems = [.null]) := by
    intro hds hl
    rcases loop_weigh hv hw (h.walk hw (walker_spec (hv t) out.elems 0)) hl with h | ⟨h1, h2⟩
    · left
      rwa [show onward s m = _ from funext (onward_nest hds m)]
    · refine .inr ⟨?_, h2⟩
      unfold visitLevels at h1
      split at h1
      · assumption
      · cases h1
  have hw1 : Op.isUnion s.op = false → width s = 1 := by intro h; unfold width; rw [h]; rfl
  have hmem : ∀ (b : Bool) (t : Nat) (out' : GoSlice) (t' : Nat), (do
      let (vs, t) ← evalVals env oracle root .null s.args t
      match vs with
      | [sel] =>
        if isNothing sel then .ok (some [], t)
        else do
          let out ← applySelection (fun _ el acc => valsByKey env acc el sel b) 0 (some []) out.elems
          .ok (out, t)
      | _ => .stuck : Res RErr (GoSlice × Nat)) = .ok (out', t') → Times root' (conv m (lvl 1 1)) out'.elems := by
    intro b t out' t' he
    cases ha : evalVals env oracle root .null s.args t with
    | ok x =>
      obtain ⟨vs, t1⟩ := x
      rw [ha] at he
      simp only [Res.bind_ok] at he
      split at he
      · next sel =>
        split at he
        · cases he; exact .none
        · cases hs : applySelection (fun _ el acc => valsByKey env acc el sel b) 0 (some []) out.elems with
          | ok o =>
            rw [hs] at he
            cases he
            exact hsel _ _ 1 (fun v hv' k acc out hf => (valsByKey_adds (h.wf hw v hv') hf).weigh) hs
          | err e => rw [hs] at he; cases he
          | panic e => rw [hs] at he; cases he
          | stuck => rw [hs] at he; cases he
      · cases he
    | err e => rw [ha] at he; cases he
    | panic e => rw [ha] at he; cases he
    | stuck => rw [ha] at he; cases he
  unfold evalStep at he
  cases hop : s.op <;> rw [hop] at he hwalk hw1 one <;> simp only at he
  case wild =>
    cases hs : applySelection (fun k el acc => .ok (acc.appendAll (children (oracle t) [k] el))) 0 (some []) out.elems with
    | ok o =>
      rw [hs] at he
      cases he
      have := hsel _ _ 1 (fun v hv' k acc out hf => by
        cases hf
        exact ⟨_, (picks_children (h.wf hw v hv') (children_spec (hv t) [k] v)).levels, .inl (GoSlice.elems_appendAll _ _)⟩) hs
      exact .inl (one rfl (by rw [hw1 rfl]; exact this))
    | err e => rw [hs] at he; cases he
    | panic e => rw [hs] at he; cases he
    | stuck => rw [hs] at he; cases he
  case member => exact .inl (one rfl (by rw [hw1 rfl]; exact hmem _ _ _ _ he))
  case select => exact .inl (one rfl (by rw [hw1 rfl]; exact hmem _ _ _ _ he))
  case union =>
    cases ha : evalVals env oracle root .null s.args t with
    | ok x =>
      obtain ⟨vs, t1⟩ := x
      rw [ha] at he
      simp only [Res.bind_ok] at he
      cases hs : applySelection (fun _ el acc => unionByKeys env acc el vs) 0 (some []) out.elems with
      | ok o =>
        rw [hs] at he
        cases he
        have hwd : width s = vs.length := by
          unfold width
          rw [hop, evalVals_length env oracle root ha]; rfl
        exact .inl (one rfl (by
          rw [hwd]
          exact hsel _ _ _ (fun v hv' k acc out hf => unionByKeys_adds (h.wf hw v hv') _ _ _ hf) hs))
      | err e => rw [hs] at he; cases he
      | panic e => rw [hs] at he; cases he
      | stuck => rw [hs] at he; cases he
    | err e => rw [ha] at he; cases he
    | panic e => rw [ha] at he; cases he
    | stuck => rw [ha] at he; cases he
  case filter =>
    obtain ⟨parts, h1, h2⟩ := stepping_spec (hv t) out.elems 0
    have h3 : All2 (PicksW (lvl 1 1)) out.elems parts := by
      have hwf := h.wf hw
      clear h2 hsel hmem hwalk he h
      generalize out.elems = l at h1 hwf
      induction h1 with
      | nil => exact .nil
      | cons h1 _ ih => exact .cons (picks_children (hwf _ (by simp)) h1).levels (ih (fun v hv => hwf v (by simp [hv])))
    have h4 := h.picks h3
    rw [← h2] at h4
    rcases loop_weigh hv hw h4 he with h | ⟨_, h⟩
    · rw [hop, hw1 rfl] at h
      refine .inl (one rfl ?_)
      rw [hw1 rfl]
      refine h.mono fun d => ?_
      rw [show visitLevels .filter = 0 from rfl, conv_lvl_zero, Nat.mul_one]
    · exact .inr ⟨rfl, h⟩
  case nestMember => exact hwalk rfl he
  case nestSelect => exact hwalk rfl he
  case nestUnion => exact hwalk rfl he
  case nestWild => exact hwalk rfl he
  case nestFilter => exact hwalk rfl he
  all_goals cases he

/-- One way to the root. -/
def start (d : Nat) : Nat := if d = 0 then 1 else 0

theorem onward_start (s : Step) : onward s start 0 ≤ 1 := by
  show 1 * reach s 0 ≤ 1
  unfold reach
  split
  · simp
  · split <;> simp

theorem times_null {m : Nat → Nat} (hm : m 0 ≤ 1) {vs : List V} (h : Times .null m vs) : vs = [] ∨ vs = [.null] := by
  obtain ⟨ps, hf, hl⟩ := h
  have h0 := hl []
  cases hf with
  | nil => exact .inl rfl
  | cons h1 h2 =>
    cases h1
    cases h2 with
    | nil => exact .inr rfl
    | cons h3 _ =>
      cases h3
      simp at h0
      omega

theorem evalSteps_weigh {env : Env} {oracle : Oracle} (hv : oracle.Valid) {root : V} (hw : root.WF) : ∀ (q : Path)
    (m : Nat → Nat) (F : Prop) (out : GoSlice) (t : Nat) (out' : GoSlice) (t' : Nat),
    (Times root m out.elems ∨ (F ∧ out.elems = [.null])) → evalSteps env oracle root q out t = .ok (out', t') →
    Times root (q.foldl (fun m s => onward s m) m) out'.elems ∨ ((F ∨ Path.hasFilter q = true) ∧ out'.elems = [.null])
  | [], m, F, out, t, out', t', h, he => by
    cases he
    rcases h with h | ⟨h1, h2⟩
    · exact .inl h
    · exact .inr ⟨.inl h1, h2⟩
  | s :: r, m, F, out, t, out', t', h, he => by
    unfold evalSteps at he
    cases hs : evalStep env oracle root s out t with
    | ok x =>
      obtain ⟨o, t1⟩ := x
      rw [hs] at he
      simp only [Res.bind_ok] at he
      have hfil : (s.op == .filter || s.op == .nestFilter) = true ∨ Path.hasFilter r = true → Path.hasFilter (s :: r) = true := by
        intro h
        unfold Path.hasFilter at h ⊢
        rw [List.any_cons]
        rcases h with h | h <;> rw [h] <;> simp
      have next : Times root (onward s m) o.elems ∨ ((F ∨ (s.op == .filter || s.op == .nestFilter) = true) ∧ o.elems = [.null]) := by
        rcases h with h | ⟨h1, h2⟩
        · rcases evalStep_weigh hv hw h hs with h | ⟨h3, h4⟩
          · exact .inl h
          · exact .inr ⟨.inr h3, h4⟩
        · have hnull : Times .null start out.elems := by
            rw [h2]
            refine ⟨[[]], .cons (.here _) .nil, fun p => ?_⟩
            cases p <;> simp [start]
          rcases evalStep_weigh hv (by simp [V.WF]) hnull hs with h | ⟨h3, h4⟩
          · rcases times_null (onward_start s) h with h | h
            · rw [h]; exact .inl .none
            · exact .inr ⟨.inl h1, h⟩
          · exact .inr ⟨.inl h1, h4⟩
      rcases evalSteps_weigh hv hw r _ _ o t1 out' t' next he with h | ⟨h | h, h'⟩
      · exact .inl h
      · refine .inr ⟨?_, h'⟩
        rcases h with h | h
        · exact .inl h
        · exact .inr (hfil (.inl h))
      · exact .inr ⟨.inr (hfil (.inr h)), h'⟩
    | err e => rw [hs] at he; cases he
    | panic e => rw [hs] at he; cases he
    | stuck => rw [hs] at he; cases he

/-! ### The total number of results -/

theorem heights_get {x : V} : ∀ {xs : List V} {i : Nat}, xs[i]? = some x → height x + 1 ≤ heights xs
  | [], _, h => by simp at h
  | v :: r, 0, h => by
    simp only [List.getElem?_cons_zero, Option.some.injEq] at h
    subst h
    exact Nat.le_max_left _ _
  | v :: r, i + 1, h => Nat.le_trans (heights_get (xs := r) (i := i) (by simpa using h)) (Nat.le_max_right _ _)

theorem heightm_mem {k : Bytes} {x : V} : ∀ {kvs : List (Bytes × V)}, (k, x) ∈ kvs → height x + 1 ≤ heightm kvs
  | [], h => by simp at h
  | (k', v) :: r, h => by
    rcases List.mem_cons.1 h with h | h
    · cases h; exact Nat.le_max_left _ _
    · exact Nat.le_trans (heightm_mem h) (Nat.le_max_right _ _)

theorem at_height {root v : V} {p : Place} (h : At root p v) : p.length ≤ height root := by
  induction h with
  | here => exact Nat.zero_le _
  | elem hx _ ih =>
    have := heights_get hx
    simp only [height, List.length_cons]; omega
  | member hx _ ih =>
    have := heightm_mem hx
    simp only [height, List.length_cons]; omega

theorem length_le_of_count {α : Type} [BEq α] [LawfulBEq α] {B : Nat} : ∀ {m l : List α}, (∀ a ∈ l, a ∈ m) →
    (∀ a ∈ l, l.count a ≤ B) → l.length ≤ m.length * B
  | [], l, hm, _ => by
    cases l with
    | nil => simp
    | cons a l => exact absurd (hm a (by simp)) (by simp)
  | b :: m, l, hm, hc => by
    have h1 := length_le_of_count (B := B) (m := m) (l := l.filter (fun x => !(x == b))) (fun a ha => by
        obtain ⟨h1, h2⟩ := List.mem_filter.1 ha
        rcases List.mem_cons.1 (hm a h1) with h | h
        · simp [h] at h2
        · exact h)
      (fun a ha => by
        obtain ⟨h1, h2⟩ := List.mem_filter.1 ha
        exact Nat.le_trans (List.Sublist.count_le a List.filter_sublist) (hc a h1))
    have h2 : l.count b ≤ B := by
      by_cases hb : b ∈ l
      · exact hc b hb
      · rw [List.count_eq_zero.2 hb]; exact Nat.zero_le _
    have h3 : l.length = l.count b + (l.filter (fun x => !(x == b))).length := by
      rw [List.count, List.countP_eq_length_filter]
      have := List.length_eq_length_filter_add (l := l) (· == b)
      exact this
    rw [h3, List.length_cons, Nat.add_mul]
    omega

theorem sumTo_le {f : Nat → Nat} {B n : Nat} (h : ∀ j, j ≤ n → f j ≤ B) : sumTo f n ≤ (n + 1) * B := by
  induction n with
  | zero => rw [Nat.zero_add, Nat.one_mul]; exact h 0 (by omega)
  | succ n ih =>
    have h1 := ih fun j hj => h j (by omega)
    have h2 := h (n + 1) (by omega)
    rw [Nat.add_mul, Nat.one_mul]
    exact Nat.add_le_add h1 h2

theorem sumTo_one_level {f : Nat → Nat} {w n d : Nat} (h : ∀ j, f j ≤ if j = n then w else 0) : sumTo f d ≤ w := by
  induction d with
  | zero => exact Nat.le_trans (h 0) (by split <;> omega)
  | succ d ih =>
    simp only [sumTo]
    by_cases hd : d + 1 = n
    · rw [sumTo_zero fun j hj => ?_]
      · have := h (d + 1)
        rw [if_pos hd] at this
        omega
      · have := h j
        rw [if_neg (by omega)] at this
        omega
    · have := h (d + 1)
      rw [if_neg hd] at this
      omega

theorem reach_le (s : Step) (j : Nat) : reach s j ≤ width s := by
  unfold reach
  split
  · next h => unfold width; rw [h]; exact Nat.le_refl _
  · split
    · split
      · exact Nat.zero_le _
      · exact Nat.le_refl _
    · split
      · exact Nat.le_refl _
      · exact Nat.zero_le _

/-- How the ways of `n` steps of which `k` descend are bounded. -/
def WaysLe (k n w : Nat) (m : Nat → Nat) : Prop :=
  if k = 0 then ∀ d, m d ≤ if d = n then w else 0 else ∀ d, m d ≤ w * (d + 1) ^ (k - 1)

theorem onward_le {k n w : Nat} {m : Nat → Nat} (h : WaysLe k n w m) (s : Step) :
    WaysLe (k + (if Op.descends s.op then 1 else 0)) (n + 1) (w * width s) (onward s m) := by
  unfold WaysLe at h ⊢
  cases hd : Op.descends s.op with
  | false =>
    simp only [Bool.false_eq_true, if_false, Nat.add_zero]
    split at h
    · next hk =>
      rw [if_pos hk]
      intro d
      rw [onward_one hd]
      cases d with
      | zero => rw [conv_lvl_one_zero]; exact Nat.zero_le _
      | succ d =>
        rw [conv_lvl_one]
        have := h d
        by_cases hdn : d = n
        · rw [if_pos hdn] at this
          rw [if_pos (by omega)]
          exact Nat.mul_le_mul_right _ this
        · rw [if_neg hdn] at this
          rw [Nat.le_zero.1 this]; simp
    · next hk =>
      rw [if_neg hk]
      intro d
      rw [onward_one hd]
      cases d with
      | zero => rw [conv_lvl_one_zero]; exact Nat.zero_le _
      | succ d =>
        rw [conv_lvl_one, Nat.mul_right_comm]
        refine Nat.mul_le_mul_right _ (Nat.le_trans (h d) (Nat.mul_le_mul_left _ ?_))
        exact Nat.pow_le_pow_left (by omega) _
  | true =>
    simp only [if_true, Nat.add_eq_zero_iff, Nat.one_ne_zero, and_false, if_false, Nat.add_sub_cancel]
    intro d
    have h1 : onward s m d ≤ sumTo (fun j => m j * width s) d :=
      sumTo_mono fun j _ => Nat.mul_le_mul_left _ (reach_le s _)
    refine Nat.le_trans h1 ?_
    rw [sumTo_mul, Nat.mul_right_comm]
    refine Nat.mul_le_mul_right _ ?_
    split at h
    · next hk => rw [hk, Nat.pow_zero, Nat.mul_one]; exact sumTo_one_level h
    · next hk =>
      refine Nat.le_trans (sumTo_le (B := w * (d + 1) ^ (k - 1)) fun j hj => Nat.le_trans (h j) ?_) ?_
      · exact Nat.mul_le_mul_left _ (Nat.pow_le_pow_left (by omega) _)
      · rw [Nat.mul_left_comm, ← Nat.pow_succ']
        rw [show (k - 1).succ = k by omega]

theorem foldl_le : ∀ (q : Path) {k n w : Nat} {m : Nat → Nat}, WaysLe k n w m →
    WaysLe (k + descents q) (n + q.length) (q.foldl (fun w s => w * width s) w) (q.foldl (fun m s => onward s m) m)
  | [], _, _, _, _, h => h
  | s :: r, k, n, w, m, h => by
    have := foldl_le r (onward_le h s)
    rw [List.foldl_cons, List.foldl_cons, List.length_cons]
    rw [show n + (r.length + 1) = n + 1 + r.length by omega]
    have hd : k + descents (s :: r) = k + (if Op.descends s.op then 1 else 0) + descents r := by
      unfold descents
      rw [List.filter_cons]
      split <;> simp <;> omega
    rw [hd]
    exact this

theorem ways_le (q : Path) : WaysLe (descents q) q.length (widths q) (ways q) := by
  have := foldl_le q (k := 0) (n := 0) (w := 1) (m := fun d => if d = 0 then 1 else 0) (by
    unfold WaysLe
    rw [if_pos rfl]
    exact fun d => Nat.le_refl _)
  rwa [Nat.zero_add, Nat.zero_add] at this

theorem GStep.width_pos {valid : Bytes → Bool} {ts : List Token} {s : Step} (h : GStep valid ts s) : 1 ≤ width s := by
  have sub : ∀ {ts k}, GSub valid ts k → ∀ d, 1 ≤ width (k.step true d) := by
    intro ts k h d
    cases h with
    | union _ _ _ h2 => cases d <;> exact Nat.le_trans (by decide) h2
    | _ => cases d <;> exact Nat.le_refl _
  have mem : ∀ m d, 1 ≤ width ((memberKind m).step false d) := by
    intro m d
    cases m <;> cases d <;> exact Nat.le_refl _
  cases h with
  | member => exact mem _ _
  | nestMember => exact mem _ _
  | sub _ _ h => exact sub h _
  | nestSub _ _ h => exact sub h _

theorem GSteps.widths_pos {valid : Bytes → Bool} {ts : List Token} {q : Path} (h : GSteps valid ts q) :
    ∀ w, 1 ≤ w → 1 ≤ q.foldl (fun w s => w * width s) w := by
  induction h with
  | nil => exact fun _ h => h
  | cons _ _ _ _ h _ ih => exact fun w hw => ih _ (Nat.mul_pos hw (GStep.width_pos h))

theorem IsCompiled.widths_pos {env : Env} {p : JSONPath} {q : Path} (h : IsCompiled env p q) : 1 ≤ widths q := by
  obtain ⟨⟨t, h1, h2⟩, _⟩ := h
  obtain ⟨ts, _, us, h3, _⟩ := parsePath_iff.1 h2
  exact GSteps.widths_pos h3 1 (Nat.le_refl _)

/-! ### Exactly so many -/

theorem sumTo_only {f : Nat → Nat} {n j : Nat} (hj : j ≤ n) (h : ∀ i, i ≤ n → i ≠ j → f i = 0) : sumTo f n = f j := by
  induction n with
  | zero => cases Nat.le_zero.1 hj; rfl
  | succ n ih =>
    simp only [sumTo]
    by_cases hn : j = n + 1
    · subst hn
      rw [sumTo_zero fun i hi => h i (by omega) (by omega), Nat.zero_add]
    · rw [ih (by omega) (fun i hi => h i (by omega)), h (n + 1) (by omega) (by omega), Nat.add_zero]

theorem at_split {root v : V} : ∀ {p q : Place}, At root (p ++ q) v → ∃ u, At root p u ∧ At u q v
  | [], _, h => ⟨root, .here _, h⟩
  | k :: p, q, h => by
    rw [List.cons_append] at h
    cases h with
    | elem hx h =>
      obtain ⟨u, h1, h2⟩ := at_split h
      exact ⟨u, .elem hx h1, h2⟩
    | member hx h =>
      obtain ⟨u, h1, h2⟩ := at_split h
      exact ⟨u, .member hx h1, h2⟩

theorem member_unique {k : Bytes} {x y : V} : ∀ {kvs : List (Bytes × V)}, (kvs.map Prod.fst).Nodup → (k, x) ∈ kvs → (k, y) ∈ kvs → x = y
  | [], _, h, _ => by simp at h
  | (k', v) :: r, hn, h1, h2 => by
    rw [List.map_cons, List.nodup_cons] at hn
    rcases List.mem_cons.1 h1 with e1 | e1 <;> rcases List.mem_cons.1 h2 with e2 | e2
    · cases e1; cases e2; rfl
    · cases e1; exact absurd (List.mem_map.2 ⟨_, e2, rfl⟩) hn.1
    · cases e2; exact absurd (List.mem_map.2 ⟨_, e1, rfl⟩) hn.1
    · exact member_unique hn.2 e1 e2

theorem at_unique {root u v : V} {p : Place} (hw : root.WF) (h : At root p u) (h' : At root p v) : u = v := by
  induction h with
  | here => cases h'; rfl
  | elem hx _ ih =>
    cases h' with
    | elem hx' h' =>
      rw [hx] at hx'
      cases hx'
      unfold V.WF at hw
      exact ih (wfs_mem hw.2 _ (List.mem_of_getElem? hx)) h'
  | member hx _ ih =>
    cases h' with
    | member hx' h' =>
      unfold V.WF at hw
      cases member_unique hw.2.1 hx hx'
      exact ih (wfm_mem hw.2.2 _ _ hx) h'

/-- The values are found at places below `v`, at each of those of the given kind exactly so many times. -/
def PicksE (S : V → Prop) (W : Nat → Nat) (v : V) (us : List V) : Prop :=
  ∃ ps, Found v ps us ∧ ∀ p u, At v p u → S u → ps.count p = W p.length

theorem exact_flatten {S : V → Prop} {W : Nat → Nat} {root : V} (hw : root.WF) : ∀ {places : List Place} {vs : List V} {uss : List (List V)},
    Found root places vs → All2 (PicksE S W) vs uss →
    ∃ qs, Found root qs uss.flatten ∧
      ∀ q u, At root q u → S u → qs.count q = sumTo (fun j => places.count (q.take j) * W (q.length - j)) q.length := by
  intro places vs uss hf hp
  unfold Found at hf
  induction hf generalizing uss with
  | nil =>
    cases hp
    exact ⟨[], .nil, fun q u _ _ => by rw [sumTo_zero]; rfl; intro j _; simp⟩
  | @cons p v places vs h _ ih =>
    cases hp with
    | @cons _ us _ uss h1 h2 =>
      obtain ⟨qs, h3, h4⟩ := ih h2
      obtain ⟨ps, h5, h6⟩ := h1
      refine ⟨ps.map (p ++ ·) ++ qs, Spec.All2.append (found_below h h5) h3, fun q u hq hu => ?_⟩
      rw [List.count_append, count_map_append]
      have e : sumTo (fun j => (p :: places).count (q.take j) * W (q.length - j)) q.length =
          sumTo (fun j => places.count (q.take j) * W (q.length - j)) q.length +
          sumTo (fun j => (if p == q.take j then 1 else 0) * W (q.length - j)) q.length := by
        rw [← sumTo_add]
        refine sumTo_congr fun j _ => ?_
        rw [List.count_cons, Nat.add_mul]
      rw [e, Nat.add_comm, h4 q u hq hu]
      congr 1
      split
      · next hpre =>
        obtain ⟨r, rfl⟩ := hpre
        rw [sumTo_only (j := p.length) (by simp)]
        · simp only [List.take_left, List.drop_left, beq_self_eq_true, if_true, Nat.one_mul, List.length_append, Nat.add_sub_cancel_left]
          obtain ⟨v', hv1, hv2⟩ := at_split hq
          cases at_unique hw h hv1
          exact h6 r u hv2 hu
        · intro i hi hne
          rw [if_neg, Nat.zero_mul]
          intro hc
          have := congrArg List.length (beq_iff_eq.1 hc)
          rw [List.length_take, Nat.min_eq_left hi] at this
          exact hne this.symm
      · next hpre =>
        rw [sumTo_zero]
        intro j _
        rw [if_neg, Nat.zero_mul]
        intro hc
        rw [beq_iff_eq.1 hc] at hpre
        exact hpre (List.take_prefix _ _)

theorem nodup_count_one {α : Type} [BEq α] [LawfulBEq α] {l : List α} (h : l.Nodup) {a : α} (ha : a ∈ l) : l.count a = 1 :=
  Nat.le_antisymm (List.nodup_iff_count.1 h a) (List.count_pos_iff.2 ha)

theorem children_exact {v : V} (hw : v.WF) {l : List V} (h : Children v l) : PicksE (fun _ => True) (lvl 1 1) v l := by
  cases h with
  | arr =>
    refine ⟨(List.range l.length).map fun i => [.index i], ?_, ?_⟩
    · have := Spec.All2.ofMap (R := At (.arr l)) (fun i : Fin l.length => [Key.index i.1]) (fun i => l[i]) (List.finRange l.length)
        (fun i _ => .elem (List.getElem?_eq_getElem i.2) (.here _))
      unfold Found
      convert this using 1
      · rw [← List.map_coe_finRange_eq_range, List.map_map]; rfl
      · exact List.ext_getElem (by simp) (by simp)
    · intro p u hp _
      have hn : ((List.range l.length).map fun i => [Key.index i]).Nodup :=
        List.Pairwise.map _ (fun a b h h2 => h (by simpa using h2)) List.nodup_range
      unfold lvl
      split
      · next h1 =>
        refine nodup_count_one hn ?_
        cases hp with
        | here => cases h1
        | elem hx hp =>
          cases hp with
          | here =>
            exact List.mem_map.2 ⟨_, List.mem_range.2 (List.getElem?_eq_some_iff.1 hx).1, rfl⟩
          | elem => simp at h1
          | member => simp at h1
      · next h1 =>
        refine List.count_eq_zero.2 fun hm => h1 ?_
        obtain ⟨_, _, rfl⟩ := List.mem_map.1 hm
        rfl
  | obj kvs _ hp =>
    unfold V.WF at hw
    have h1 : All2 (At (.obj kvs)) (kvs.map fun kv => [.name kv.1]) (kvs.map Prod.snd) :=
      .ofMap _ _ _ (fun kv hkv => .member (k := kv.1) hkv (.here _))
    obtain ⟨ps, hp', h2⟩ := h1.perm_right hp.symm
    refine ⟨ps, h2, fun p u hpu _ => ?_⟩
    rw [← hp'.count_eq]
    have hn : (kvs.map fun kv => [Key.name kv.1]).Nodup := by
      have : ((kvs.map Prod.fst).map fun k => [Key.name k]).Nodup :=
        List.Pairwise.map _ (fun a b h h2 => h (by simpa using h2)) hw.2.1
      rwa [List.map_map] at this
    unfold lvl
    split
    · next h1 =>
      refine nodup_count_one hn ?_
      cases hpu with
      | here => cases h1
      | member hx hp =>
        cases hp with
        | here => exact List.mem_map.2 ⟨_, hx, rfl⟩
        | elem => simp at h1
        | member => simp at h1
    · next h1 =>
      refine List.count_eq_zero.2 fun hm => h1 ?_
      obtain ⟨_, _, rfl⟩ := List.mem_map.1 hm
      rfl
  | other _ hs =>
    refine ⟨[], .nil, fun p u hp _ => ?_⟩
    cases hp with
    | here => rfl
    | elem => cases hs
    | member => cases hs

/-- An array or object. -/
abbrev Inside (v : V) : Prop := isStructure v = true

theorem walk_join {v : V} (hw : v.WF) {vs : List V} {uss : List (List V)} (hc : PicksE (fun _ => True) (lvl 1 1) v vs)
    (h : All2 (PicksE Inside fun _ => 1) vs uss) : PicksE Inside (fun _ => 1) v (v :: uss.flatten) := by
  obtain ⟨ps, hf, hl⟩ := hc
  obtain ⟨qs, h1, h2⟩ := exact_flatten hw hf h
  refine ⟨[] :: qs, .cons (.here _) h1, fun q u hq hu => ?_⟩
  rw [List.count_cons, h2 q u hq hu]
  have e : ∀ j, j ≤ q.length → ps.count (q.take j) * 1 = lvl 1 1 j := by
    intro j hj
    have hq' := hq
    rw [← List.take_append_drop j q] at hq'
    obtain ⟨w, hw1, _⟩ := at_split hq'
    rw [hl _ w hw1 trivial, List.length_take, Nat.min_eq_left hj, Nat.mul_one]
  rw [sumTo_congr e]
  cases q with
  | nil => rfl
  | cons k q =>
    rw [sumTo_only (f := lvl 1 1) (j := 1) (by simp) (fun i _ h => if_neg h)]
    rfl

mutual
theorem walk_exact : ∀ {v : V} {l : List V}, PreOrder v l → v.WF → PicksE Inside (fun _ => 1) v l
  | _, _, .arr xs l h, hw => by
    have hw' := hw
    unfold V.WF at hw'
    obtain ⟨uss, h1, rfl⟩ := walks_exact h (fun x hx => wfs_mem hw'.2 _ hx)
    exact walk_join hw (children_exact hw (.arr xs)) h1
  | _, _, .obj kvs vs l hp h, hw => by
    have hw' := hw
    unfold V.WF at hw'
    obtain ⟨uss, h1, rfl⟩ := walks_exact h (fun x hx => by
      obtain ⟨kv, hkv, rfl⟩ := List.mem_map.1 (hp.mem_iff.1 hx)
      exact wfm_mem hw'.2.2 kv.1 kv.2 hkv)
    exact walk_join hw (children_exact hw (.obj kvs vs hp)) h1
  | _, _, .other v h, _ => ⟨[], .nil, fun p u hp hu => by
      cases hp with
      | here => exact absurd (h.symm.trans hu) (by decide)
      | elem => cases h
      | member => cases h⟩
theorem walks_exact : ∀ {vs l : List V}, PreOrders vs l → (∀ v ∈ vs, v.WF) →
    ∃ uss, All2 (PicksE Inside fun _ => 1) vs uss ∧ l = uss.flatten
  | _, _, .nil, _ => ⟨[], .nil, rfl⟩
  | _, _, .cons v vs l l' h h', hw => by
    obtain ⟨uss, h1, h2⟩ := walks_exact h' (fun w h => hw w (by simp [h]))
    exact ⟨l :: uss, .cons (walk_exact h (hw v (by simp))) h1, by rw [h2]; rfl⟩
end

theorem PicksE.wf {S : V → Prop} {root : V} (hw : root.WF) {m : Nat → Nat} {vs : List V} (h : PicksE S m root vs) : ∀ v ∈ vs, v.WF := by
  obtain ⟨ps, hf, _⟩ := h
  exact found_wf hw hf

theorem all2_children_exact {vs : List V} {parts : List (List V)} (h : All2 Children vs parts) (hw : ∀ v ∈ vs, v.WF) :
    All2 (PicksE (fun _ => True) (lvl 1 1)) vs parts := by
  induction h with
  | nil => exact .nil
  | cons h _ ih => exact .cons (children_exact (hw _ (by simp)) h) (ih fun v hv => hw v (by simp [hv]))

theorem inside_of_below {root v : V} {k : Key} {p : Place} (h : At root (k :: p) v) : Inside root := by
  cases h <;> rfl

theorem exact_children {S : V → Prop} (hS : ∀ v, Inside v → S v) {root : V} (hw : root.WF) {m : Nat → Nat} {vs : List V} {parts : List (List V)}
    (h : PicksE S m root vs) (hc : All2 Children vs parts) : PicksE (fun _ => True) (conv m (lvl 1 1)) root parts.flatten := by
  have hwf := h.wf hw
  obtain ⟨ps, hf, hm⟩ := h
  obtain ⟨qs, h1, h2⟩ := exact_flatten hw hf (all2_children_exact hc hwf)
  refine ⟨qs, h1, fun q u hq hu => ?_⟩
  rw [h2 q u hq hu]
  refine sumTo_congr fun j hj => ?_
  by_cases h : q.length - j = 1
  · have hq' := hq
    rw [← List.take_append_drop j q] at hq'
    obtain ⟨w, hw1, hw2⟩ := at_split hq'
    have hin : Inside w := by
      cases hd : q.drop j with
      | nil =>
        have := congrArg List.length hd
        rw [List.length_drop, h] at this
        cases this
      | cons k r => rw [hd] at hw2; exact inside_of_below hw2
    rw [hm _ w hw1 (hS w hin), List.length_take, Nat.min_eq_left hj]
  · rw [show lvl 1 1 (q.length - j) = 0 from if_neg h, Nat.mul_zero, Nat.mul_zero]

theorem exact_walk {root : V} (hw : root.WF) {m : Nat → Nat} {vs l : List V}
    (h : PicksE (fun _ => True) m root vs) (hp : PreOrders vs l) : PicksE Inside (conv m fun _ => 1) root l := by
  have hwf := h.wf hw
  obtain ⟨ps, hf, hm⟩ := h
  obtain ⟨uss, h1, rfl⟩ := walks_exact hp hwf
  obtain ⟨qs, h2, h3⟩ := exact_flatten hw hf h1
  refine ⟨qs, h2, fun q u hq hu => ?_⟩
  rw [h3 q u hq hu]
  refine sumTo_congr fun j hj => ?_
  have hq' := hq
  rw [← List.take_append_drop j q] at hq'
  obtain ⟨w, hw1, _⟩ := at_split hq'
  rw [hm _ w hw1 trivial, List.length_take, Nat.min_eq_left hj]

theorem evalStep_exact {env : Env} {oracle : Oracle} (hv : oracle.Valid) {root : V} (hw : root.WF) {s : Step} (hs : Wild s)
    {m : Nat → Nat} {out : GoSlice} (h : PicksE (fun _ => True) m root out.elems) (t : Nat) :
    ∃ out' t', evalStep env oracle root s out t = .ok (out', t') ∧ PicksE (fun _ => True) (onward s m) root out'.elems := by
  rcases hs with rfl | rfl
  · obtain ⟨parts, hp, o, ho, hel⟩ := applySelection_parts (R := Children)
      (f := fun k el acc => .ok (acc.appendAll (children (oracle t) [k] el))) out.elems 0 (some [])
      (fun v _ k acc => ⟨_, children_spec (hv t) [k] v, _, rfl, GoSlice.elems_appendAll _ _⟩)
    refine ⟨o, t + 1, by simp only [evalStep, ho, Res.bind_ok], ?_⟩
    rw [hel, show onward ⟨.wild, []⟩ m = conv m (lvl 1 1) from funext (onward_one rfl m)]
    exact exact_children (fun _ _ => trivial) hw h hp
  · have hwk := walker_spec (hv t) out.elems 0
    have hx := exact_walk hw h hwk
    rw [show onward ⟨.nestWild, []⟩ m = conv (conv m fun _ => 1) (lvl 1 1) from funext (onward_nest rfl m)]
    show ∃ out' t', loop env oracle root ⟨.nestWild, []⟩ (walker (oracle t) 0 out.elems) out (t + 1) = .ok (out', t') ∧ _
    unfold loop
    by_cases hem : out.elems.isEmpty = true
    · rw [if_pos hem]
      refine ⟨_, _, rfl, ?_⟩
      simp only [List.isEmpty_iff] at hem
      rw [hem] at hwk hx ⊢
      have : walker (oracle t) 0 [] = [] := by cases hwk; rfl
      rw [this] at hx
      exact exact_children (fun _ h => h) hw hx .nil
    · rw [if_neg hem]
      generalize walker (oracle t) 0 out.elems = l at hx
      cases l with
      | cons v r =>
        obtain ⟨parts, out', t', hp, ho, hel⟩ := visits_wild (env := env) (root := root) hv rfl (v :: r) (some []) (t + 1)
        refine ⟨out', t', ?_, ?_⟩
        · simp only [visited, List.isEmpty_cons, Bool.false_eq_true, if_false]
          exact ho
        · rw [hel]
          exact exact_children (fun _ h => h) hw hx hp
      | nil =>
        refine ⟨_, _, by simp [visited, visits, evalVals, visit, children, GoSlice.appendAll]; exact ⟨rfl, rfl⟩, ?_⟩
        exact exact_children (fun _ h => h) hw hx .nil

theorem evalSteps_exact {env : Env} {oracle : Oracle} (hv : oracle.Valid) {root : V} (hw : root.WF) : ∀ (q : Path) (_ : ∀ s ∈ q, Wild s)
    (m : Nat → Nat) (out : GoSlice) (t : Nat), PicksE (fun _ => True) m root out.elems →
    ∃ out' t', evalSteps env oracle root q out t = .ok (out', t') ∧
      PicksE (fun _ => True) (q.foldl (fun m s => onward s m) m) root out'.elems
  | [], _, _, out, t, h => ⟨out, t, rfl, h⟩
  | s :: r, hq, m, out, t, h => by
    obtain ⟨o, t1, h1, h2⟩ := evalStep_exact (env := env) hv hw (hq s (by simp)) h t
    obtain ⟨out', t', h3, h4⟩ := evalSteps_exact (env := env) hv hw r (fun s hs => hq s (by simp [hs])) _ o t1 h2
    exact ⟨out', t', by simp only [evalSteps, h1, Res.bind_ok, h3], h4⟩

end JP
