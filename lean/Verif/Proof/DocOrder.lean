import Verif.Spec.DocOrder
import Verif.Proof.Locate
import Verif.Proof.Perm
import Verif.Proof.Api
/-! Lemmas about document order: a step that goes forward keeps it. -/
namespace JP
open Spec

theorem Spec.All2.split {α β : Type} {R : α → β → Prop} : ∀ {as as' : List α} {bs : List β}, All2 R (as ++ as') bs →
    ∃ bs1 bs2, bs = bs1 ++ bs2 ∧ All2 R as bs1 ∧ All2 R as' bs2
  | [], _, bs, h => ⟨[], bs, rfl, .nil, h⟩
  | a :: as, as', bs, h => by
    cases h with
    | cons h1 h2 =>
      obtain ⟨b1, b2, rfl, h3, h4⟩ := Spec.All2.split h2
      exact ⟨_ :: b1, b2, rfl, .cons h1 h3, h4⟩

/-- Places in document order below a place. -/
def Under (m : Nat) (p : Place) (qs : List Place) : Prop := ∃ rs, DocOrder m rs ∧ qs = rs.map (p ++ ·)

theorem docOrder_nil : ∀ n, DocOrder n []
  | 0 => .inl rfl
  | _ + 1 => ⟨[], .nil, by simp, rfl⟩

theorem under_unmap {m : Nat} {k : Key} : ∀ {ps : List Place} {pss : List (List Place)}, All2 (Under m) (ps.map (k :: ·)) pss →
    ∃ qss, All2 (Under m) ps qss ∧ pss = qss.map (List.map (k :: ·))
  | [], _, h => by cases h; exact ⟨[], .nil, rfl⟩
  | p :: ps, _, h => by
    cases h with
    | cons h1 h2 =>
      obtain ⟨qss, h3, rfl⟩ := under_unmap h2
      obtain ⟨rs, h4, rfl⟩ := h1
      exact ⟨rs.map (p ++ ·) :: qss, .cons ⟨rs, h4, rfl⟩ h3, by simp [Function.comp_def]⟩

theorem docOrder_under {m : Nat} : ∀ {n : Nat} {ps : List Place} {pss : List (List Place)}, DocOrder n ps → All2 (Under m) ps pss →
    DocOrder (n + m) pss.flatten
  | 0, ps, pss, h, hu => by
    rw [Nat.zero_add]
    rcases h with rfl | rfl
    · cases hu; exact docOrder_nil m
    · cases hu with
      | cons h1 h2 =>
        cases h2
        obtain ⟨rs, h3, rfl⟩ := h1
        simpa using h3
  | n + 1, ps, pss, h, hu => by
    obtain ⟨groups, h1, h2, rfl⟩ := h
    rw [show n + 1 + m = n + m + 1 by omega]
    have : ∃ gs : List (Key × List Place), gs.map Prod.fst = groups.map Prod.fst ∧ (∀ g ∈ gs, DocOrder (n + m) g.2) ∧
        pss.flatten = gs.flatMap fun g => g.2.map (g.1 :: ·) := by
      clear h1
      induction groups generalizing pss with
      | nil => cases hu; exact ⟨[], rfl, by simp, rfl⟩
      | cons g groups ih =>
        rw [List.flatMap_cons] at hu
        obtain ⟨p1, p2, rfl, h3, h4⟩ := hu.split
        obtain ⟨gs, h5, h6, h7⟩ := ih p2 (fun g hg => h2 g (by simp [hg])) h4
        obtain ⟨qss, h8, rfl⟩ := under_unmap h3
        refine ⟨(g.1, qss.flatten) :: gs, by simp [h5], ?_, ?_⟩
        · intro g' hg'
          rcases List.mem_cons.1 hg' with rfl | hg'
          · exact docOrder_under (h2 g (by simp)) h8
          · exact h6 g' hg'
        · rw [List.flatten_append, h7, List.flatMap_cons, List.map_flatten]
    obtain ⟨gs, h3, h4, h5⟩ := this
    exact ⟨gs, by rw [h3]; exact h1, h4, h5⟩

theorem docOrder_keys {ks : List Key} (h : ks.Pairwise Precedes) : DocOrder 1 (ks.map ([·])) := by
  refine ⟨ks.map fun k => (k, [[]]), ?_, ?_, ?_⟩
  · rw [List.map_map]; simpa [Function.comp_def] using h
  · intro g hg
    obtain ⟨k, _, rfl⟩ := List.mem_map.1 hg
    exact .inr rfl
  · induction ks with
    | nil => rfl
    | cons k r ih =>
      rw [List.pairwise_cons] at h
      simp only [List.map_cons, List.flatMap_cons, List.map_nil]
      rw [ih h.2]
      rfl

theorem docOrder_length : ∀ {n : Nat} {ps : List Place}, DocOrder n ps → ∀ p ∈ ps, p.length = n
  | 0, ps, h, p, hp => by rcases h with rfl | rfl <;> simp at hp; simp [hp]
  | n + 1, ps, h, p, hp => by
    obtain ⟨groups, _, h2, rfl⟩ := h
    obtain ⟨g, hg, hp⟩ := List.mem_flatMap.1 hp
    obtain ⟨q, hq, rfl⟩ := List.mem_map.1 hp
    simp [docOrder_length (h2 g hg) q hq]

/-- At the first difference of two places, the keys are in order. -/
theorem docOrder_pairwise : ∀ {n : Nat} {ps : List Place}, DocOrder n ps →
    ps.Pairwise fun p q => ∃ pre a b r s, p = pre ++ a :: r ∧ q = pre ++ b :: s ∧ Precedes a b
  | 0, ps, h => by rcases h with rfl | rfl <;> simp
  | n + 1, ps, h => by
    obtain ⟨groups, h1, h2, rfl⟩ := h
    induction groups with
    | nil => exact .nil
    | cons g groups ih =>
      rw [List.map_cons, List.pairwise_cons] at h1
      rw [List.flatMap_cons, List.pairwise_append]
      refine ⟨?_, ih h1.2 (fun g hg => h2 g (by simp [hg])), ?_⟩
      · refine List.Pairwise.map _ ?_ (docOrder_pairwise (h2 g (by simp)))
        rintro p q ⟨pre, a, b, r, s, rfl, rfl, h⟩
        exact ⟨g.1 :: pre, a, b, r, s, rfl, rfl, h⟩
      · intro p hp q hq
        obtain ⟨p', _, rfl⟩ := List.mem_map.1 hp
        obtain ⟨g', hg', hq⟩ := List.mem_flatMap.1 hq
        obtain ⟨q', _, rfl⟩ := List.mem_map.1 hq
        exact ⟨[], _, _, _, _, rfl, rfl, h1.1 _ (List.mem_map.2 ⟨g', hg', rfl⟩)⟩

/-- The values are found in document order, so many levels below `v`. -/
def InDocOrder (n : Nat) (v : V) (us : List V) : Prop := ∃ ps, DocOrder n ps ∧ Found v ps us

theorem InDocOrder.none {n : Nat} {v : V} : InDocOrder n v [] := ⟨[], docOrder_nil n, .nil⟩

theorem InDocOrder.self {v : V} : InDocOrder 0 v [v] := ⟨[[]], .inr rfl, .cons (.here _) .nil⟩

theorem InDocOrder.under {n : Nat} {root v : V} {p : Place} {us : List V} (ha : At root p v) (h : InDocOrder n v us) :
    ∃ ps, Under n p ps ∧ Found root ps us := by
  obtain ⟨ps, hn, hf⟩ := h
  refine ⟨ps.map (p ++ ·), ⟨ps, hn, rfl⟩, ?_⟩
  clear hn
  unfold Found at hf ⊢
  induction hf with
  | nil => exact .nil
  | cons h _ ih => exact .cons (ha.trans h) ih

theorem InDocOrder.join {n m : Nat} {root : V} {vs : List V} {uss : List (List V)} (h : InDocOrder n root vs)
    (hp : All2 (InDocOrder m) vs uss) : InDocOrder (n + m) root uss.flatten := by
  obtain ⟨places, ho, hf⟩ := h
  have : ∃ pss, All2 (Under m) places pss ∧ Found root pss.flatten uss.flatten := by
    clear ho
    unfold Found at hf
    induction hf generalizing uss with
    | nil => cases hp; exact ⟨[], .nil, .nil⟩
    | cons h _ ih =>
      cases hp with
      | cons h1 h2 =>
        obtain ⟨pss, h3, h4⟩ := ih h2
        obtain ⟨ps, h5, h6⟩ := h1.under h
        exact ⟨ps :: pss, .cons h5 h3, Spec.All2.append h6 h4⟩
  obtain ⟨pss, h1, h2⟩ := this
  exact ⟨_, docOrder_under ho h1, h2⟩

theorem InDocOrder.wf {n : Nat} {root : V} (hw : root.WF) {vs : List V} (h : InDocOrder n root vs) : ∀ v ∈ vs, v.WF := by
  obtain ⟨ps, _, hf⟩ := h
  exact found_wf hw hf

theorem inDocOrder_indices {xs : List V} {idx : List Nat} (hn : idx.Pairwise (· < ·)) :
    InDocOrder 1 (.arr xs) (idx.filterMap (xs[·]?)) := by
  refine ⟨((idx.filter fun i => i < xs.length).map Key.index).map ([·]), docOrder_keys ?_, ?_⟩
  · exact List.Pairwise.map _ (fun a b h => .index h) (List.Pairwise.filter _ hn)
  · clear hn
    induction idx with
    | nil => exact .nil
    | cons i r ih =>
      by_cases hi : i < xs.length
      · rw [List.filter_cons_of_pos (by simpa using hi), List.filterMap_cons_some (List.getElem?_eq_getElem hi)]
        exact .cons (.elem (List.getElem?_eq_getElem hi) (.here _)) ih
      · rw [List.filter_cons_of_neg (by simpa using hi), List.filterMap_cons_none (by simpa using hi)]
        exact ih

theorem inDocOrder_children {v : V} (hw : v.WF) {l : List V} (h : Children v l) : InDocOrder 1 v l := by
  cases h with
  | arr =>
    have := inDocOrder_indices (xs := l) (idx := List.range l.length) List.pairwise_lt_range
    rwa [filterMap_range_get] at this
  | obj kvs _ hp =>
    unfold V.WF at hw
    have h1 : All2 (fun k x => At (.obj kvs) [k] x) (kvs.map fun kv => Key.name kv.1) (kvs.map Prod.snd) :=
      .ofMap _ _ _ (fun kv hkv => .member (k := kv.1) hkv (.here _))
    obtain ⟨ks, hp', h2⟩ := h1.perm_right hp.symm
    refine ⟨ks.map ([·]), docOrder_keys ?_, ?_⟩
    · have hn : ks.Nodup := by
        rw [← hp'.nodup_iff]
        have : ((kvs.map Prod.fst).map Key.name).Nodup :=
          List.Pairwise.map _ (fun a b h h2 => h (by simpa using h2)) hw.2.1
        rwa [List.map_map] at this
      refine List.Pairwise.imp_of_mem ?_ hn
      intro a b ha hb hab
      obtain ⟨x, _, rfl⟩ := List.mem_map.1 (hp'.mem_iff.2 ha)
      obtain ⟨y, _, rfl⟩ := List.mem_map.1 (hp'.mem_iff.2 hb)
      exact .name (fun h => hab (by rw [h]))
    · clear hp' hp
      unfold Found
      induction h2 with
      | nil => exact .nil
      | cons h _ ih => exact .cons h ih
  | other => exact .none

theorem inDocOrder_one {v x : V} {k : Key} (h : At v [k] x) : InDocOrder 1 v [x] :=
  ⟨[k].map ([·]), docOrder_keys (by simp), .cons h .nil⟩

theorem sliceIndices_lt (n : Nat) (a b : Option Int) {c : Int} (hc : 0 ≤ c) : (sliceIndices n a b c).Pairwise (· < ·) := by
  unfold sliceIndices
  dsimp only
  split
  · exact List.pairwise_lt_range.filter _
  · split
    · omega
    · exact .nil

/-- What a step adds to a result set: values in document order, or the result set is emptied. -/
def AddsOrd (n : Nat) (v : V) (acc out : GoSlice) : Prop :=
  (∃ us, InDocOrder n v us ∧ out.elems = acc.elems ++ us) ∨ out.elems = []

theorem AddsOrd.same {n : Nat} {v : V} {acc : GoSlice} : AddsOrd n v acc acc := .inl ⟨[], .none, by simp⟩

/-- The key is not a slice with a negative stride. -/
def FwdKey (k : V) : Prop := ∀ s, k = .slice s → 0 ≤ s.strideInt

theorem valsByKey_order {env : Env} {acc out : GoSlice} {src key : V} {neg : Bool} (hk : FwdKey key) (hw : src.WF)
    (h : valsByKey env acc src key neg = .ok out) : AddsOrd 1 src acc out := by
  unfold valsByKey at h
  split at h
  · next s =>
    split at h
    · next xs =>
      unfold V.WF at hw
      obtain ⟨h1, h2⟩ := sliceVals_spec xs s hw.1
      by_cases hj : ∃ j ∈ s.indices xs.length, 2 ^ 63 ≤ (j : Int) + s.strideInt
      · rw [h2 hj] at h; cases h
      · rw [h1 (fun j hj' => by
          rcases Int.lt_or_le ((j : Int) + s.strideInt) (2 ^ 63) with h | h
          · exact h
          · exact absurd ⟨j, hj', h⟩ hj)] at h
        cases h
        exact .inl ⟨_, inDocOrder_indices (sliceIndices_lt _ _ _ (hk s rfl)), GoSlice.elems_appendAll _ _⟩
    · cases h; exact .inr rfl
  · split at h
    · next xs =>
      split at h
      · split at h
        · next w hw' =>
          cases h
          unfold valByKey at hw'
          dsimp only at hw'
          generalize (if (neg && decide (cvi env key < 0)) = true then cvi env key + Int64.ofNat xs.length
            else cvi env key) = n at hw'
          split at hw'
          · obtain ⟨i, hi⟩ := goIndex_get hw'
            exact .inl ⟨[w], inDocOrder_one (.elem hi (.here _)), rfl⟩
          · cases hw'
        · cases h; exact .same
      · cases h; exact .same
    · next kvs =>
      split at h
      · next w hw' =>
        cases h
        exact .inl ⟨[w], inDocOrder_one (.member (lookup_mem hw') (.here _)), rfl⟩
      · cases h; exact .same
    · cases h; exact .same

theorem adds_order {n : Nat} {v : V} {acc out : GoSlice} (h : AddsOrd n v acc out) {l0 : List V} {pre : List (List V)}
    (hp : All2 (InDocOrder n) l0 pre) (he : acc.elems = pre.flatten) :
    ∃ uss, All2 (InDocOrder n) (l0 ++ [v]) uss ∧ out.elems = uss.flatten := by
  rcases h with ⟨us, h1, h2⟩ | h
  · exact ⟨pre ++ [us], hp.append (.cons h1 .nil), by rw [h2, he]; simp⟩
  · refine ⟨(l0 ++ [v]).map fun _ => [], ?_, ?_⟩
    · have := Spec.All2.ofMap (R := InDocOrder n) id (fun _ => []) (l0 ++ [v]) (fun _ _ => .none)
      simpa using this
    · rw [h]; symm; rw [List.flatten_eq_nil_iff]; intro x hx; obtain ⟨_, _, rfl⟩ := List.mem_map.1 hx; rfl

theorem applySelection_order {n : Nat} {f : Nat → V → GoSlice → Res RErr GoSlice} :
    ∀ (l : List V) (k : Nat) (acc out : GoSlice) (l0 : List V) (pre : List (List V)),
    (∀ v ∈ l, ∀ k acc out, f k v acc = .ok out → AddsOrd n v acc out) →
    All2 (InDocOrder n) l0 pre → acc.elems = pre.flatten →
    applySelection f k acc l = .ok out → ∃ uss, All2 (InDocOrder n) (l0 ++ l) uss ∧ out.elems = uss.flatten
  | [], k, acc, out, l0, pre, _, hp, he, h => by
    cases h
    exact ⟨pre, by simpa using hp, he⟩
  | v :: r, k, acc, out, l0, pre, hf, hp, he, h => by
    unfold applySelection at h
    cases hv : f k v acc with
    | ok acc1 =>
      rw [hv] at h
      obtain ⟨uss, h1, h2⟩ := adds_order (hf v (by simp) _ _ _ hv) hp he
      have := applySelection_order r (k + 1) acc1 out (l0 ++ [v]) uss (fun w hw => hf w (by simp [hw])) h1 h2 h
      simpa using this
    | err e => rw [hv] at h; cases h
    | panic e => rw [hv] at h; cases h
    | stuck => rw [hv] at h; cases h

/-- A filter keeps or drops what it visits. -/
theorem visits_filter_order {env : Env} {oracle : Oracle} {root : V} {s : Step} (hop : s.op = .filter) :
    ∀ (l : List V) (acc : GoSlice) (t : Nat) (out : GoSlice) (t' : Nat) (l0 : List V) (pre : List (List V)),
    All2 (InDocOrder 0) l0 pre → acc.elems = pre.flatten →
    visits env oracle root s l acc t = .ok (out, t') →
    ∃ uss, All2 (InDocOrder 0) (l0 ++ l) uss ∧ out.elems = uss.flatten
  | [], acc, t, out, t', l0, pre, hp, he, h => by
    cases h
    exact ⟨pre, by simpa using hp, he⟩
  | v :: r, acc, t, out, t', l0, pre, hp, he, h => by
    unfold visits at h
    obtain ⟨⟨vs, t1⟩, _, h⟩ := bind_eq_ok h
    obtain ⟨acc1, hvis, h⟩ := bind_eq_ok h
    have ha : AddsOrd 0 v acc acc1 := by
      rw [hop] at hvis
      unfold visit at hvis
      split at hvis <;> try contradiction
      · cases hvis
        split
        · exact .inl ⟨[v], .self, rfl⟩
        · exact .same
    obtain ⟨uss, h1, h2⟩ := adds_order ha hp he
    have := visits_filter_order hop r acc1 _ out t' (l0 ++ [v]) uss h1 h2 h
    simpa using this

theorem fwdKey_of_eval {env : Env} {oracle : Oracle} {root : V} (hr : NoSlice root) {s : Step} (hw : s.WF) (hf : ForwardStep s)
    {t t' : Nat} {vs : List V} (h : evalVals env oracle root .null s.args t = .ok (vs, t')) : ∀ k ∈ vs, FwdKey k := by
  intro k hk sl hsl
  rcases (evalVals_keys hr (V.WF.noSlice (by simp [V.WF])) s.args hw.1 t vs t' h).2 k hk with h1 | ⟨sl', h1, h2⟩
  · subst hsl; exact absurd .root (h1 sl)
  · rw [hsl] at h2
    cases h2
    obtain ⟨a, b, c⟩ := sl
    unfold Slice.strideInt optInt
    match c, h1 with
    | none, _ => simp
    | some (.expr _), _ => simp [Bound.cvi]
    | some (.int n), h1 => simpa [Bound.cvi] using hf.2.2 a b n h1

theorem evalStep_order {env : Env} {oracle : Oracle} (hv : oracle.Valid) {root root' : V} (hr : NoSlice root) (hw : root'.WF) {s : Step}
    (hsw : s.WF) (hf : ForwardStep s) {n : Nat} {out : GoSlice}
    (h : InDocOrder n root' out.elems) {t : Nat} {out' : GoSlice} {t' : Nat}
    (he : evalStep env oracle root s out t = .ok (out', t')) :
    InDocOrder (n + 1) root' out'.elems ∨ (s.op = .filter ∧ out'.elems = [.null]) := by
  have hsel : ∀ (f : Nat → V → GoSlice → Res RErr GoSlice) (out1 : GoSlice),
      (∀ v ∈ out.elems, ∀ k acc out, f k v acc = .ok out → AddsOrd 1 v acc out) →
      applySelection f 0 (some []) out.elems = .ok out1 → InDocOrder (n + 1) root' out1.elems := by
    intro f out1 hf h1
    obtain ⟨uss, h2, h3⟩ := applySelection_order _ _ _ _ [] [] hf .nil rfl h1
    rw [h3]
    exact h.join h2
  have hmem : ∀ (b : Bool) (t : Nat) (out' : GoSlice) (t' : Nat), (do
      let (vs, t) ← evalVals env oracle root .null s.args t
      match vs with
      | [sel] =>
        if isNothing sel then .ok (some [], t)
        else do
          let out ← applySelection (fun _ el acc => valsByKey env acc el sel b) 0 (some []) out.elems
          .ok (out, t)
      | _ => .stuck : Res RErr (GoSlice × Nat)) = .ok (out', t') → InDocOrder (n + 1) root' out'.elems := by
    intro b t out' t' he
    obtain ⟨⟨vs, t1⟩, ha, he⟩ := bind_eq_ok he
    dsimp only at he
    split at he
    · next sel =>
      split at he
      · cases he; exact .none
      · obtain ⟨o, hs, he⟩ := bind_eq_ok he
        cases he
        have hk := fwdKey_of_eval hr hsw hf ha sel (by simp)
        exact hsel _ _ (fun v hv' k acc out hf => valsByKey_order hk (h.wf hw v hv') hf) hs
    · cases he
  obtain ⟨hd, hu, _⟩ := hf
  unfold evalStep at he
  cases hop : s.op <;> rw [hop] at he hu hd <;> simp only at he <;> try (cases hu) <;> try (cases hd)
  case wild =>
    obtain ⟨o, hs, he⟩ := bind_eq_ok he
    cases he
    exact .inl (hsel _ _ (fun v hv' k acc out hf => by
      cases hf
      exact .inl ⟨_, inDocOrder_children (h.wf hw v hv') (children_spec (hv t) [k] v), GoSlice.elems_appendAll _ _⟩) hs)
  case member => exact .inl (hmem _ _ _ _ he)
  case select => exact .inl (hmem _ _ _ _ he)
  case filter =>
    obtain ⟨parts, h1, h2⟩ := stepping_spec (hv t) out.elems 0
    have h3 : All2 (InDocOrder 1) out.elems parts := by
      have hwf := h.wf hw
      clear h2 hsel hmem he h
      generalize out.elems = l at h1 hwf
      induction h1 with
      | nil => exact .nil
      | cons h1 _ ih => exact .cons (inDocOrder_children (hwf _ (by simp)) h1) (ih (fun v hv => hwf v (by simp [hv])))
    have h4 := h.join h3
    rw [← h2] at h4
    unfold loop at he
    split at he
    · next h0 =>
      cases he
      rw [List.isEmpty_iff] at h0
      rw [h0]
      exact .inl .none
    · unfold visited at he
      split at he
      · obtain ⟨uss, h5, h6⟩ := visits_filter_order hop _ _ _ _ _ [] [] .nil rfl he
        cases h5 with
        | cons h5 h7 =>
          cases h7
          rw [h6]
          obtain ⟨ps, h8, h9⟩ := h5
          rcases h8 with rfl | rfl
          · cases h9; exact .inl .none
          · cases h9 with
            | cons h9 h10 => cases h10; cases h9; exact .inr ⟨rfl, rfl⟩
      · obtain ⟨uss, h5, h6⟩ := visits_filter_order hop _ _ _ _ _ [] [] .nil rfl he
        rw [h6]
        exact .inl (h4.join h5)
  all_goals cases he

theorem inDocOrder_null {n : Nat} {vs : List V} (h : InDocOrder n .null vs) : vs = [] ∨ vs = [.null] := by
  obtain ⟨ps, hn, hf⟩ := h
  cases hf with
  | nil => exact .inl rfl
  | cons h1 h2 =>
    cases h1
    cases h2 with
    | nil => exact .inr rfl
    | cons h3 _ =>
      cases h3
      have := docOrder_pairwise hn
      rw [List.pairwise_cons] at this
      obtain ⟨pre, a, b, r, s, hp, _⟩ := this.1 [] (by simp)
      simp at hp

theorem evalSteps_order {env : Env} {oracle : Oracle} (hv : oracle.Valid) {root : V} (hw : root.WF) : ∀ (q : Path)
    (_ : ∀ s ∈ q, s.WF ∧ ForwardStep s) (n : Nat) (F : Prop) (out : GoSlice) (t : Nat) (out' : GoSlice) (t' : Nat),
    (InDocOrder n root out.elems ∨ (F ∧ out.elems = [.null])) → evalSteps env oracle root q out t = .ok (out', t') →
    InDocOrder (n + q.length) root out'.elems ∨ ((F ∨ Path.hasFilter q = true) ∧ out'.elems = [.null])
  | [], _, n, F, out, t, out', t', h, he => by
    cases he
    rcases h with h | ⟨h1, h2⟩
    · exact .inl h
    · exact .inr ⟨.inl h1, h2⟩
  | s :: r, hq, n, F, out, t, out', t', h, he => by
    unfold evalSteps at he
    obtain ⟨⟨o, t1⟩, hs, he⟩ := bind_eq_ok he
    have hfil : ∀ (F1 : Prop), (F1 → F ∨ Path.hasFilter (s :: r) = true) →
        (InDocOrder (n + 1) root o.elems ∨ (F1 ∧ o.elems = [.null])) →
        InDocOrder (n + (s :: r).length) root out'.elems ∨ ((F ∨ Path.hasFilter (s :: r) = true) ∧ out'.elems = [.null]) := by
      intro F1 h2 h3
      rcases evalSteps_order hv hw r (fun s hs => hq s (by simp [hs])) (n + 1) F1 o t1 out' t' h3 he with h5 | ⟨h4, h5⟩
      · exact .inl (by rw [List.length_cons, show n + (r.length + 1) = n + 1 + r.length by omega]; exact h5)
      · refine .inr ⟨?_, h5⟩
        rcases h4 with h | h
        · exact h2 h
        · right
          unfold Path.hasFilter at h ⊢
          rw [List.any_cons, h, Bool.or_true]
    obtain ⟨hsw, hsf⟩ := hq s (by simp)
    rcases h with h | ⟨h1, h2⟩
    · refine hfil (Path.hasFilter (s :: r) = true) .inr ?_
      rcases evalStep_order hv hw.noSlice hw hsw hsf h hs with h | ⟨h3, h4⟩
      · exact .inl h
      · refine .inr ⟨?_, h4⟩
        unfold Path.hasFilter
        rw [List.any_cons, h3]
        rfl
    · have hnull : InDocOrder 0 .null out.elems := by rw [h2]; exact .self
      refine hfil F .inl ?_
      rcases evalStep_order hv hw.noSlice (by simp [V.WF]) hsw hsf hnull hs with h | ⟨_, h4⟩
      · rcases inDocOrder_null h with h | h
        · rw [h]; exact .inl .none
        · exact .inr ⟨h1, h⟩
      · exact .inr ⟨h1, h4⟩

end JP
