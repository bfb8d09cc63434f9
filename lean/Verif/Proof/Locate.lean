import Verif.Spec.Locate
import Verif.Proof.Select
import Verif.Proof.Print
import Verif.Proof.JsText
/-! Lemmas about places: what one step finds lies at different places if what it starts from does. -/
namespace JP
open Spec

/-! ### Lists in relation -/

theorem Spec.All2.mono {α β : Type} {R R' : α → β → Prop} (hi : ∀ a b, R a b → R' a b) {as : List α} {bs : List β}
    (h : All2 R as bs) : All2 R' as bs := by
  induction h with
  | nil => exact .nil
  | cons h _ ih => exact .cons (hi _ _ h) ih

theorem Spec.All2.mem_left {α β : Type} {R : α → β → Prop} {as : List α} {bs : List β} (h : All2 R as bs) {a : α} (ha : a ∈ as) :
    ∃ b ∈ bs, R a b := by
  induction h with
  | nil => cases ha
  | cons h _ ih =>
    rcases List.mem_cons.1 ha with rfl | ha
    · exact ⟨_, by simp, h⟩
    · obtain ⟨b, hb, hr⟩ := ih ha
      exact ⟨b, by simp [hb], hr⟩

theorem Spec.All2.mem_right {α β : Type} {R : α → β → Prop} {as : List α} {bs : List β} (h : All2 R as bs) {b : β} (hb : b ∈ bs) :
    ∃ a ∈ as, R a b := by
  induction h with
  | nil => cases hb
  | cons h _ ih =>
    rcases List.mem_cons.1 hb with rfl | hb
    · exact ⟨_, by simp, h⟩
    · obtain ⟨a, ha, hr⟩ := ih hb
      exact ⟨a, by simp [ha], hr⟩

theorem Spec.All2.perm_right {α β : Type} {R : α → β → Prop} {bs bs' : List β} (hp : bs.Perm bs') :
    ∀ {as : List α}, All2 R as bs → ∃ as', as.Perm as' ∧ All2 R as' bs' := by
  induction hp with
  | nil => intro as h; exact ⟨as, .refl _, h⟩
  | cons b _ ih =>
    intro as h
    cases h with
    | cons h1 h2 =>
      obtain ⟨as', hp, h'⟩ := ih h2
      exact ⟨_ :: as', hp.cons _, .cons h1 h'⟩
  | swap b c l =>
    intro as h
    cases h with
    | cons h1 h2 =>
      cases h2 with
      | cons h2 h3 => exact ⟨_, .swap _ _ _, .cons h2 (.cons h1 h3)⟩
  | trans _ _ ih1 ih2 =>
    intro as h
    obtain ⟨as1, p1, h1⟩ := ih1 h
    obtain ⟨as2, p2, h2⟩ := ih2 h1
    exact ⟨as2, p1.trans p2, h2⟩

theorem Spec.All2.ofMap {α β γ : Type} {R : α → β → Prop} (f : γ → α) (g : γ → β) : ∀ (l : List γ), (∀ c ∈ l, R (f c) (g c)) →
    All2 R (l.map f) (l.map g)
  | [], _ => .nil
  | c :: l, h => .cons (h c (by simp)) (ofMap f g l (fun c hc => h c (by simp [hc])))

/-! ### Places -/

theorem Spec.At.trans {a b c : V} {p q : Place} (h : At a p b) (h2 : At b q c) : At a (p ++ q) c := by
  induction h with
  | here => exact h2
  | elem hx _ ih => exact .elem hx (ih h2)
  | member hx _ ih => exact .member hx (ih h2)

theorem V.WF.at {a b : V} {p : Place} (h : At a p b) (hw : a.WF) : b.WF := by
  induction h with
  | here => exact hw
  | elem hx _ ih =>
    unfold V.WF at hw
    exact ih (wfs_mem hw.2 _ (List.mem_of_getElem? hx))
  | member hx _ ih =>
    unfold V.WF at hw
    exact ih (wfm_mem hw.2.2 _ _ hx)

/-- Neither place lies on the way to the other. -/
def Apart (a b : Place) : Prop := ¬ a <+: b ∧ ¬ b <+: a

theorem Apart.ne {a b : Place} (h : Apart a b) : a ≠ b := by
  rintro rfl
  exact h.1 (List.prefix_refl _)

theorem Apart.append {a b : Place} (h : Apart a b) (r s : Place) : Apart (a ++ r) (b ++ s) := by
  constructor
  · intro hp
    have h1 : a <+: b ++ s := (List.prefix_append a r).trans hp
    rcases List.prefix_or_prefix_of_prefix h1 (List.prefix_append b s) with h2 | h2
    · exact h.1 h2
    · exact h.2 h2
  · intro hp
    have h1 : b <+: a ++ r := (List.prefix_append b s).trans hp
    rcases List.prefix_or_prefix_of_prefix h1 (List.prefix_append a r) with h2 | h2
    · exact h.2 h2
    · exact h.1 h2

theorem apart_of_length {a b : Place} (h : a ≠ b) (hl : a.length = b.length) : Apart a b :=
  ⟨fun hp => h (hp.eq_of_length hl), fun hp => h (hp.eq_of_length hl.symm).symm⟩

theorem nodup_of_apart {ps : List Place} (h : ps.Pairwise Apart) : ps.Nodup := h.imp Apart.ne

theorem apart_of_nodup {ps : List Place} {n : Nat} (h : ps.Nodup) (hl : ∀ p ∈ ps, p.length = n) : ps.Pairwise Apart :=
  List.Pairwise.imp_of_mem (fun ha hb hab => apart_of_length hab (by rw [hl _ ha, hl _ hb])) h

/-- The values are found at different places below `v`, each with the property `P`. -/
def Picks (P : Place → Prop) (v : V) (us : List V) : Prop :=
  ∃ ps, ps.Nodup ∧ Found v ps us ∧ ∀ p ∈ ps, P p

/-- The place is so many levels down. -/
def Levels (n : Nat) (p : Place) : Prop := p.length = n

theorem Picks.none {P : Place → Prop} {v : V} : Picks P v [] := ⟨[], .nil, .nil, by simp⟩

/-- Places below given places. -/
def Below (P : Place → Prop) (p : Place) (ps : List Place) : Prop :=
  ps.Nodup ∧ ∀ q ∈ ps, ∃ r, q = p ++ r ∧ P r

theorem Picks.below {P : Place → Prop} {root v : V} {p : Place} {us : List V} (ha : At root p v) (h : Picks P v us) :
    ∃ ps, Below P p ps ∧ Found root ps us := by
  obtain ⟨ps, hn, hf, hP⟩ := h
  refine ⟨ps.map (p ++ ·), ⟨?_, ?_⟩, ?_⟩
  · exact List.Pairwise.map _ (fun a b h h2 => h (List.append_cancel_left h2)) hn
  · intro q hq
    obtain ⟨r, hr, rfl⟩ := List.mem_map.1 hq
    exact ⟨r, rfl, hP r hr⟩
  · clear hn hP
    unfold Found at hf ⊢
    induction hf with
    | nil => exact .nil
    | cons h _ ih => exact .cons (ha.trans h) ih

theorem found_flatten {P : Place → Prop} {root : V} : ∀ {places : List Place} {vs : List V} {uss : List (List V)},
    Found root places vs → All2 (Picks P) vs uss →
    ∃ pss, All2 (Below P) places pss ∧ Found root pss.flatten uss.flatten := by
  intro places vs uss hf hp
  unfold Found at hf
  induction hf generalizing uss with
  | nil => cases hp; exact ⟨[], .nil, .nil⟩
  | cons h _ ih =>
    cases hp with
    | cons h1 h2 =>
      obtain ⟨pss, h3, h4⟩ := ih h2
      obtain ⟨ps, h5, h6⟩ := h1.below h
      exact ⟨ps :: pss, .cons h5 h3, Spec.All2.append h6 h4⟩

theorem below_pairwise {P : Place → Prop} {R R' : Place → Place → Prop} (hR : ∀ a b r s, R a b → P r → P s → R' (a ++ r) (b ++ s))
    (hI : ∀ p ps, Below P p ps → ps.Pairwise R') : ∀ {places : List Place} {pss : List (List Place)},
    All2 (Below P) places pss → places.Pairwise R → pss.flatten.Pairwise R' := by
  intro places pss h hp
  induction h with
  | nil => exact .nil
  | cons h1 h2 ih =>
    rw [List.pairwise_cons] at hp
    rw [List.flatten_cons, List.pairwise_append]
    refine ⟨hI _ _ h1, ih hp.2, ?_⟩
    intro x hx y hy
    obtain ⟨r, rfl, hr⟩ := h1.2 x hx
    obtain ⟨ps, hps, hy⟩ := List.mem_flatten.1 hy
    obtain ⟨b, hb, hb2⟩ := h2.mem_right hps
    obtain ⟨s, rfl, hs⟩ := hb2.2 y hy
    exact hR _ _ _ _ (hp.1 b hb) hr hs

/-- From places of which none lies on the way to another one, all the places below are different. -/
theorem below_nodup {P : Place → Prop} {places : List Place} {pss : List (List Place)} (h : All2 (Below P) places pss)
    (hp : places.Pairwise Apart) : pss.flatten.Nodup :=
  below_pairwise (fun _ _ _ _ h _ _ => (h.append _ _).ne) (fun _ _ h => h.1) h hp

/-- From different places, all the places a fixed number of levels below are different. -/
theorem below_nodup_levels {n : Nat} {places : List Place} {pss : List (List Place)} (h : All2 (Below (Levels n)) places pss)
    (hp : places.Nodup) : pss.flatten.Nodup :=
  below_pairwise (R := (· ≠ ·)) (fun _ _ _ _ h hr hs h2 => h (List.append_inj_left' h2 (Eq.trans hr (Eq.symm hs)))) (fun _ _ h => h.1) h hp

theorem below_length {n m : Nat} {places : List Place} {pss : List (List Place)} (h : All2 (Below (Levels n)) places pss)
    (hp : ∀ p ∈ places, p.length = m) : ∀ p ∈ pss.flatten, p.length = m + n := by
  intro p hp'
  obtain ⟨ps, hps, hpp⟩ := List.mem_flatten.1 hp'
  obtain ⟨a, ha, hb⟩ := h.mem_right hps
  obtain ⟨r, rfl, hr⟩ := hb.2 p hpp
  rw [List.length_append, hp a ha]
  exact congrArg (m + ·) hr

/-! ### What steps pick -/

theorem picks_indices {xs : List V} {idx : List Nat} (hn : idx.Nodup) :
    Picks (Levels 1) (.arr xs) (idx.filterMap (xs[·]?)) := by
  refine ⟨(idx.filter fun i => i < xs.length).map fun i => [.index i], ?_, ?_, ?_⟩
  · exact List.Pairwise.map _ (fun a b h h2 => h (by simpa using h2)) (List.Pairwise.filter _ hn)
  · clear hn
    induction idx with
    | nil => exact .nil
    | cons i r ih =>
      by_cases hi : i < xs.length
      · rw [List.filter_cons_of_pos (by simpa using hi), List.filterMap_cons_some (List.getElem?_eq_getElem hi)]
        exact .cons (.elem (List.getElem?_eq_getElem hi) (.here _)) ih
      · rw [List.filter_cons_of_neg (by simpa using hi), List.filterMap_cons_none (by simpa using hi)]
        exact ih
  · intro p hp
    obtain ⟨i, _, rfl⟩ := List.mem_map.1 hp
    rfl

theorem filterMap_range_get {α : Type} (xs : List α) : (List.range xs.length).filterMap (xs[·]?) = xs := by
  have := permute_range xs
  unfold permute at this
  exact this

theorem picks_children {v : V} (hw : v.WF) {l : List V} (h : Children v l) : Picks (Levels 1) v l := by
  cases h with
  | arr =>
    have := picks_indices (xs := l) (idx := List.range l.length) List.nodup_range
    rwa [filterMap_range_get] at this
  | obj kvs _ hp =>
    unfold V.WF at hw
    have h1 : All2 (At (.obj kvs)) (kvs.map fun kv => [.name kv.1]) (kvs.map Prod.snd) :=
      .ofMap _ _ _ (fun kv hkv => .member (k := kv.1) hkv (.here _))
    obtain ⟨ps, hp', h2⟩ := h1.perm_right hp.symm
    refine ⟨ps, ?_, h2, ?_⟩
    · rw [← hp'.nodup_iff]
      have : ((kvs.map Prod.fst).map fun k => [Key.name k]).Nodup :=
        List.Pairwise.map _ (fun a b h h2 => h (by simpa using h2)) hw.2.1
      rwa [List.map_map] at this
    · intro p hpm
      obtain ⟨kv, _, rfl⟩ := List.mem_map.1 (hp'.mem_iff.2 hpm)
      rfl
  | other => exact .none

theorem picks_self {v : V} : Picks (Levels 0) v [v] :=
  ⟨[[]], by simp, .cons (.here _) .nil, by simp [Levels]⟩

theorem sliceIndices_nodup (n : Nat) (a b : Option Int) (c : Int) : (sliceIndices n a b c).Nodup := by
  unfold sliceIndices
  dsimp only
  split
  · exact List.nodup_range.filter _
  · split
    · exact (List.pairwise_reverse.2 (List.nodup_range.imp Ne.symm)).filter _
    · exact .nil

theorem goIndex_get {xs : List V} {i : Int64} {v : V} (h : goIndex xs i = some v) : ∃ n : Nat, xs[n]? = some v := by
  rcases Int.lt_or_le i.toInt 0 with hi | hi
  · rw [goIndex_neg hi] at h; cases h
  · exact ⟨i.toInt.toNat, by rw [← h, goIndex_nat (n := i.toInt.toNat) (by omega)]⟩

theorem picks_one {xs : List V} {n : Nat} {v : V} (h : xs[n]? = some v) : Picks (Levels 1) (.arr xs) [v] :=
  ⟨[[.index n]], by simp, .cons (.elem h (.here _)) .nil, by simp [Levels]⟩

/-- What a step adds to a result set: different places, or the result set is emptied. -/
def AddsAt (P : Place → Prop) (v : V) (acc out : GoSlice) : Prop :=
  (∃ us, Picks P v us ∧ out.elems = acc.elems ++ us) ∨ out.elems = []

theorem AddsAt.same {P : Place → Prop} {v : V} {acc : GoSlice} : AddsAt P v acc acc := .inl ⟨[], .none, by simp⟩

theorem valsByKey_adds {env : Env} {acc out : GoSlice} {src key : V} {neg : Bool} (hw : src.WF)
    (h : valsByKey env acc src key neg = .ok out) : AddsAt (Levels 1) src acc out := by
  unfold valsByKey at h
  split at h
  · next s =>
    split at h
    · next xs =>
      unfold V.WF at hw
      obtain ⟨h1, h2⟩ := sliceVals_spec xs s hw.1
      by_cases hj : ∃ j ∈ s.indices xs.length, 2 ^ 63 ≤ (j : Int) + s.strideInt
      · rw [h2 hj] at h; cases h
      · rw [h1 (fun j hj' => by
          rcases Int.lt_or_le ((j : Int) + s.strideInt) (2 ^ 63) with h | h
          · exact h
          · exact absurd ⟨j, hj', h⟩ hj)] at h
        cases h
        exact .inl ⟨_, picks_indices (sliceIndices_nodup _ _ _ _), GoSlice.elems_appendAll _ _⟩
    · cases h; exact .inr rfl
  · split at h
    · next xs =>
      split at h
      · split at h
        · next w hw' =>
          cases h
          unfold valByKey at hw'
          dsimp only at hw'
          generalize (if (neg && decide (cvi env key < 0)) = true then cvi env key + Int64.ofNat xs.length
            else cvi env key) = n at hw'
          split at hw'
          · obtain ⟨i, hi⟩ := goIndex_get hw'
            exact .inl ⟨[w], picks_one hi, rfl⟩
          · cases hw'
        · cases h; exact .same
      · cases h; exact .same
    · next kvs =>
      split at h
      · next w hw' =>
        cases h
        exact .inl ⟨[w], ⟨[[.name _]], by simp, .cons (.member (lookup_mem hw') (.here _)) .nil, by simp [Levels]⟩, rfl⟩
      · cases h; exact .same
    · cases h; exact .same

theorem adds_parts {P : Place → Prop} {v : V} {acc out : GoSlice} (h : AddsAt P v acc out) {l0 : List V} {pre : List (List V)}
    (hp : All2 (Picks P) l0 pre) (he : acc.elems = pre.flatten) :
    ∃ uss, All2 (Picks P) (l0 ++ [v]) uss ∧ out.elems = uss.flatten := by
  rcases h with ⟨us, h1, h2⟩ | h
  · exact ⟨pre ++ [us], hp.append (.cons h1 .nil), by rw [h2, he]; simp⟩
  · refine ⟨(l0 ++ [v]).map fun _ => [], ?_, ?_⟩
    · have := Spec.All2.ofMap (R := Picks P) id (fun _ => []) (l0 ++ [v]) (fun _ _ => .none)
      simpa using this
    · rw [h]; symm; rw [List.flatten_eq_nil_iff]; intro x hx; obtain ⟨_, _, rfl⟩ := List.mem_map.1 hx; rfl

theorem applySelection_picks {P : Place → Prop} {f : Nat → V → GoSlice → Res RErr GoSlice} :
    ∀ (l : List V) (k : Nat) (acc out : GoSlice) (l0 : List V) (pre : List (List V)),
    (∀ v ∈ l, ∀ k acc out, f k v acc = .ok out → AddsAt P v acc out) →
    All2 (Picks P) l0 pre → acc.elems = pre.flatten →
    applySelection f k acc l = .ok out → ∃ uss, All2 (Picks P) (l0 ++ l) uss ∧ out.elems = uss.flatten
  | [], k, acc, out, l0, pre, _, hp, he, h => by
    cases h
    exact ⟨pre, by simpa using hp, he⟩
  | v :: r, k, acc, out, l0, pre, hf, hp, he, h => by
    unfold applySelection at h
    cases hv : f k v acc with
    | ok acc1 =>
      rw [hv] at h
      obtain ⟨uss, h1, h2⟩ := adds_parts (hf v (by simp) _ _ _ hv) hp he
      have := applySelection_picks r (k + 1) acc1 out (l0 ++ [v]) uss (fun w hw => hf w (by simp [hw])) h1 h2 h
      simpa using this
    | err e => rw [hv] at h; cases h
    | panic e => rw [hv] at h; cases h
    | stuck => rw [hv] at h; cases h

/-- How many levels a visit goes down: a filter keeps or drops what it visits. -/
def visitLevels (op : Op) : Nat := if op == .filter || op == .nestFilter then 0 else 1

theorem visit_adds {env : Env} {ord : Ord} (hv : ord.Valid) {op : Op} {dot : V} {vs : List V} {acc out : GoSlice}
    (hu : Op.isUnion op = false) (hw : dot.WF) (h : visit env ord op dot vs acc = .ok out) :
    AddsAt (Levels (visitLevels op)) dot acc out := by
  unfold visit at h
  split at h
  · cases h
    split
    · exact .inl ⟨[dot], picks_self, rfl⟩
    · exact .same
  · cases h
    split
    · exact .inl ⟨[dot], picks_self, rfl⟩
    · exact .same
  · split at h
    · cases h; exact .same
    · exact valsByKey_adds hw h
  · split at h
    · cases h; exact .same
    · exact valsByKey_adds hw h
  · cases hu
  · cases h
    exact .inl ⟨_, picks_children hw (children_spec hv [0] dot), GoSlice.elems_appendAll _ _⟩
  · cases h

theorem visits_picks {env : Env} {oracle : Oracle} (hv : oracle.Valid) {root : V} {s : Step} (hu : Op.isUnion s.op = false) :
    ∀ (l : List V) (acc : GoSlice) (t : Nat) (out : GoSlice) (t' : Nat) (l0 : List V) (pre : List (List V)),
    (∀ v ∈ l, v.WF) → All2 (Picks (Levels (visitLevels s.op))) l0 pre → acc.elems = pre.flatten →
    visits env oracle root s l acc t = .ok (out, t') →
    ∃ uss, All2 (Picks (Levels (visitLevels s.op))) (l0 ++ l) uss ∧ out.elems = uss.flatten
  | [], acc, t, out, t', l0, pre, _, hp, he, h => by
    cases h
    exact ⟨pre, by simpa using hp, he⟩
  | v :: r, acc, t, out, t', l0, pre, hw, hp, he, h => by
    unfold visits at h
    cases ha : evalVals env oracle root v s.args t with
    | ok x =>
      obtain ⟨vs, t1⟩ := x
      rw [ha] at h
      simp only [Res.bind_ok] at h
      cases hvis : visit env (oracle t1) s.op v vs acc with
      | ok acc1 =>
        rw [hvis] at h
        obtain ⟨uss, h1, h2⟩ := adds_parts (visit_adds (hv t1) hu (hw v (by simp)) hvis) hp he
        have := visits_picks hv hu r acc1 _ out t' (l0 ++ [v]) uss (fun w h => hw w (by simp [h])) h1 h2 h
        simpa using this
      | err e => rw [hvis] at h; cases h
      | panic e => rw [hvis] at h; cases h
      | stuck => rw [hvis] at h; cases h
    | err e => rw [ha] at h; cases h
    | panic e => rw [ha] at h; cases h
    | stuck => rw [ha] at h; cases h

/-! ### Descent -/

theorem preOrder_join {v : V} {vs : List V} {uss : List (List V)} (hc : Picks (Levels 1) v vs)
    (h : All2 (Picks (fun _ => True)) vs uss) : Picks (fun _ => True) v (v :: uss.flatten) := by
  obtain ⟨ps, hn, hf, hl⟩ := hc
  obtain ⟨pss, h1, h2⟩ := found_flatten hf h
  refine ⟨[] :: pss.flatten, ?_, .cons (.here _) h2, by simp⟩
  rw [List.nodup_cons]
  refine ⟨?_, below_nodup h1 (apart_of_nodup hn hl)⟩
  intro hm
  obtain ⟨qs, hqs, hq⟩ := List.mem_flatten.1 hm
  obtain ⟨a, ha, hb⟩ := h1.mem_right hqs
  obtain ⟨r, hr, _⟩ := hb.2 _ hq
  have := hl a ha
  cases a with
  | nil => cases this
  | cons => cases hr

mutual
theorem preOrder_picks : ∀ {v : V} {l : List V}, PreOrder v l → v.WF → Picks (fun _ => True) v l
  | _, _, .arr xs l h, hw => by
    have hw' := hw
    unfold V.WF at hw'
    have hc := picks_children hw (.arr xs)
    obtain ⟨uss, h1, rfl⟩ := preOrders_picks h (fun x hx => wfs_mem hw'.2 _ hx)
    exact preOrder_join hc h1
  | _, _, .obj kvs vs l hp h, hw => by
    have hw' := hw
    unfold V.WF at hw'
    have hc := picks_children hw (.obj kvs vs hp)
    obtain ⟨uss, h1, rfl⟩ := preOrders_picks h (fun x hx => by
      obtain ⟨kv, hkv, rfl⟩ := List.mem_map.1 (hp.mem_iff.1 hx)
      exact wfm_mem hw'.2.2 kv.1 kv.2 hkv)
    exact preOrder_join hc h1
  | _, _, .other v h, _ => .none
theorem preOrders_picks : ∀ {vs l : List V}, PreOrders vs l → (∀ v ∈ vs, v.WF) →
    ∃ uss, All2 (Picks (fun _ => True)) vs uss ∧ l = uss.flatten
  | _, _, .nil, _ => ⟨[], .nil, rfl⟩
  | _, _, .cons v vs l l' h h', hw => by
    obtain ⟨uss, h1, h2⟩ := preOrders_picks h' (fun w h => hw w (by simp [h]))
    exact ⟨l :: uss, .cons (preOrder_picks h (hw v (by simp))) h1, by rw [h2]; rfl⟩
end

/-! ### One step -/

/-- The values are found at different places; if the path has not descended, at the given level. -/
def Once (root : V) (deep : Bool) (n : Nat) (vs : List V) : Prop :=
  ∃ ps, ps.Nodup ∧ Found root ps vs ∧ (deep = false → ∀ p ∈ ps, p.length = n)

theorem Once.empty {root : V} {deep : Bool} {n : Nat} : Once root deep n [] := ⟨[], .nil, .nil, by simp⟩

theorem found_wf {root : V} (hw : root.WF) {ps : List Place} {vs : List V} (h : Found root ps vs) : ∀ v ∈ vs, v.WF := by
  intro v hv
  obtain ⟨p, _, hp⟩ := Spec.All2.mem_right h hv
  exact hw.at hp

theorem Once.wf {root : V} (hw : root.WF) {deep : Bool} {n : Nat} {vs : List V} (h : Once root deep n vs) : ∀ v ∈ vs, v.WF := by
  obtain ⟨ps, _, hf, _⟩ := h
  exact found_wf hw hf

theorem Once.picks {root : V} {deep : Bool} {n m : Nat} {vs : List V} {uss : List (List V)} (h : Once root deep n vs)
    (hp : All2 (Picks (Levels m)) vs uss) : Once root deep (n + m) uss.flatten := by
  obtain ⟨ps, hn, hf, hl⟩ := h
  obtain ⟨pss, h1, h2⟩ := found_flatten hf hp
  exact ⟨pss.flatten, below_nodup_levels h1 hn, h2, fun hd => below_length h1 (hl hd)⟩

theorem Once.walk {root : V} (hw : root.WF) {n : Nat} {vs l : List V} (h : Once root false n vs) (hp : PreOrders vs l) :
    Once root true 0 l := by
  obtain ⟨ps, hn, hf, hl⟩ := h
  obtain ⟨uss, h1, rfl⟩ := preOrders_picks hp (found_wf hw hf)
  obtain ⟨pss, h2, h3⟩ := found_flatten hf h1
  exact ⟨pss.flatten, below_nodup h2 (apart_of_nodup hn (hl rfl)), h3, by simp⟩

theorem picks_null {n : Nat} {us : List V} (h : Picks (Levels n) .null us) : us = [] ∨ (n = 0 ∧ us = [.null]) := by
  obtain ⟨ps, hn, hf, hl⟩ := h
  cases hf with
  | nil => exact .inl rfl
  | cons h1 h2 =>
    cases h1
    cases h2 with
    | nil => exact .inr ⟨(hl [] (by simp)).symm, rfl⟩
    | cons h3 _ => cases h3; simp at hn

theorem loop_once {env : Env} {oracle : Oracle} (hv : oracle.Valid) {root root' : V} (hw : root'.WF) {s : Step}
    (hu : Op.isUnion s.op = false) {deep : Bool} {n : Nat} {vals : List V} (h : Once root' deep n vals) {out : GoSlice} {t : Nat}
    {out' : GoSlice} {t' : Nat} (he : loop env oracle root s vals out t = .ok (out', t')) :
    Once root' deep (n + visitLevels s.op) out'.elems ∨ (visitLevels s.op = 0 ∧ out'.elems = [.null]) := by
  unfold loop at he
  split at he
  · next h0 =>
    cases he
    rw [List.isEmpty_iff] at h0
    rw [h0]
    exact .inl .empty
  · unfold visited at he
    split at he
    · obtain ⟨uss, h1, h2⟩ := visits_picks hv hu _ _ _ _ _ [] [] (by simp [V.WF]) .nil rfl he
      cases h1 with
      | cons h1 h3 =>
        cases h3
        rw [h2]
        rcases picks_null h1 with rfl | ⟨h4, rfl⟩
        · exact .inl .empty
        · exact .inr ⟨h4, rfl⟩
    · obtain ⟨uss, h1, h2⟩ := visits_picks hv hu _ _ _ _ _ [] [] (h.wf hw) .nil rfl he
      rw [h2]
      exact .inl (h.picks h1)

theorem evalStep_once {env : Env} {oracle : Oracle} (hv : oracle.Valid) {root root' : V} (hw : root'.WF) {s : Step}
    (hu : Op.isUnion s.op = false) {deep : Bool} (hd : deep = true → Op.descends s.op = false) {n : Nat} {out : GoSlice}
    (h : Once root' deep n out.elems) {t : Nat} {out' : GoSlice} {t' : Nat}
    (he : evalStep env oracle root s out t = .ok (out', t')) :
    Once root' (deep || Op.descends s.op) (n + 1) out'.elems ∨
      ((s.op == .filter || s.op == .nestFilter) = true ∧ out'.elems = [.null]) := by
  have hsel : ∀ (f : Nat → V → GoSlice → Res RErr GoSlice) (out1 : GoSlice),
      (∀ v ∈ out.elems, ∀ k acc out, f k v acc = .ok out → AddsAt (Levels 1) v acc out) →
      applySelection f 0 (some []) out.elems = .ok out1 → Once root' deep (n + 1) out1.elems := by
    intro f out1 hf h1
    obtain ⟨uss, h2, h3⟩ := applySelection_picks _ _ _ _ [] [] hf .nil rfl h1
    rw [h3]
    exact h.picks h2
  have hmem : ∀ (b : Bool) (t : Nat) (out' : GoSlice) (t' : Nat), (do
      let (vs, t) ← evalVals env oracle root .null s.args t
      match vs with
      | [sel] =>
        if isNothing sel then .ok (some [], t)
        else do
          let out ← applySelection (fun _ el acc => valsByKey env acc el sel b) 0 (some []) out.elems
          .ok (out, t)
      | _ => .stuck : Res RErr (GoSlice × Nat)) = .ok (out', t') → Once root' deep (n + 1) out'.elems := by
    intro b t out' t' he
    cases ha : evalVals env oracle root .null s.args t with
    | ok x =>
      obtain ⟨vs, t1⟩ := x
      rw [ha] at he
      simp only [Res.bind_ok] at he
      split at he
      · next sel =>
        split at he
        · cases he; exact .empty
        · cases hs : applySelection (fun _ el acc => valsByKey env acc el sel b) 0 (some []) out.elems with
          | ok o =>
            rw [hs] at he
            cases he
            exact hsel _ _ (fun v hv' k acc out hf => valsByKey_adds (h.wf hw v hv') hf) hs
          | err e => rw [hs] at he; cases he
          | panic e => rw [hs] at he; cases he
          | stuck => rw [hs] at he; cases he
      · cases he
    | err e => rw [ha] at he; cases he
    | panic e => rw [ha] at he; cases he
    | stuck => rw [ha] at he; cases he
  have hwalk : Op.descends s.op = true → loop env oracle root s (walker (oracle t) 0 out.elems) out (t + 1) = .ok (out', t') →
      Once root' (deep || Op.descends s.op) (n + 1) out'.elems ∨
      ((s.op == .filter || s.op == .nestFilter) = true ∧ out'.elems = [.null]) := by
    intro hds hl
    have hdeep : deep = false := by
      cases deep
      · rfl
      · rw [hd rfl] at hds; cases hds
    subst hdeep
    rw [hds]
    rcases loop_once hv hw hu (h.walk hw (walker_spec (hv t) out.elems 0)) hl with h | ⟨h1, h2⟩
    · obtain ⟨ps, h1, h2, _⟩ := h
      exact .inl ⟨ps, h1, h2, by simp⟩
    · refine .inr ⟨?_, h2⟩
      unfold visitLevels at h1
      split at h1
      · assumption
      · cases h1
  unfold evalStep at he
  cases hop : s.op <;> rw [hop] at he hu hwalk <;> simp only at he
  case wild =>
    cases hs : applySelection (fun k el acc => .ok (acc.appendAll (children (oracle t) [k] el))) 0 (some []) out.elems with
    | ok o =>
      rw [hs] at he
      cases he
      have := hsel _ _ (fun v hv' k acc out hf => by
        cases hf
        exact .inl ⟨_, picks_children (h.wf hw v hv') (children_spec (hv t) [k] v), GoSlice.elems_appendAll _ _⟩) hs
      exact .inl (by rw [show Op.descends .wild = false from rfl, Bool.or_false]; exact this)
    | err e => rw [hs] at he; cases he
    | panic e => rw [hs] at he; cases he
    | stuck => rw [hs] at he; cases he
  case member => exact .inl (by rw [show Op.descends .member = false from rfl, Bool.or_false]; exact hmem _ _ _ _ he)
  case select => exact .inl (by rw [show Op.descends .select = false from rfl, Bool.or_false]; exact hmem _ _ _ _ he)
  case union => cases hu
  case filter =>
    obtain ⟨parts, h1, h2⟩ := stepping_spec (hv t) out.elems 0
    have h3 : All2 (Picks (Levels 1)) out.elems parts := by
      have hwf := h.wf hw
      clear h2 hsel hmem hwalk he h
      generalize out.elems = l at h1 hwf
      induction h1 with
      | nil => exact .nil
      | cons h1 _ ih => exact .cons (picks_children (hwf _ (by simp)) h1) (ih (fun v hv => hwf v (by simp [hv])))
    have h4 := h.picks h3
    rw [← h2] at h4
    have hu' : Op.isUnion s.op = false := by rw [hop]; rfl
    rcases loop_once hv hw hu' h4 he with h | ⟨_, h⟩
    · rw [hop] at h
      exact .inl (by rw [show Op.descends .filter = false from rfl, Bool.or_false]; exact h)
    · exact .inr ⟨rfl, h⟩
  case nestMember => exact hwalk rfl he
  case nestSelect => exact hwalk rfl he
  case nestUnion => cases hu
  case nestWild => exact hwalk rfl he
  case nestFilter => exact hwalk rfl he
  all_goals cases he

theorem once_null {deep : Bool} {n : Nat} {vs : List V} (h : Once .null deep n vs) : vs = [] ∨ vs = [.null] := by
  obtain ⟨ps, hn, hf, _⟩ := h
  cases hf with
  | nil => exact .inl rfl
  | cons h1 h2 =>
    cases h1
    cases h2 with
    | nil => exact .inr rfl
    | cons h3 _ => cases h3; simp at hn

theorem evalSteps_once {env : Env} {oracle : Oracle} (hv : oracle.Valid) {root : V} (hw : root.WF) : ∀ (q : Path)
    (_ : ∀ s ∈ q, Op.isUnion s.op = false) (deep : Bool) (n : Nat) (_ : descents q + (if deep then 1 else 0) ≤ 1) (F : Prop)
    (out : GoSlice) (t : Nat) (out' : GoSlice) (t' : Nat),
    (Once root deep n out.elems ∨ (F ∧ out.elems = [.null])) → evalSteps env oracle root q out t = .ok (out', t') →
    (∃ deep', (deep' = true → deep = true ∨ 0 < descents q) ∧ Once root deep' (n + q.length) out'.elems) ∨
      ((F ∨ Path.hasFilter q = true) ∧ out'.elems = [.null])
  | [], _, deep, n, _, F, out, t, out', t', h, he => by
    cases he
    rcases h with h | ⟨h1, h2⟩
    · exact .inl ⟨deep, fun h => .inl h, h⟩
    · exact .inr ⟨.inl h1, h2⟩
  | s :: r, hu, deep, n, hd, F, out, t, out', t', h, he => by
    unfold evalSteps at he
    cases hs : evalStep env oracle root s out t with
    | ok x =>
      obtain ⟨o, t1⟩ := x
      rw [hs] at he
      simp only [Res.bind_ok] at he
      have hdc : descents (s :: r) = descents r + (if Op.descends s.op = true then 1 else 0) := by
        unfold descents
        by_cases hds : Op.descends s.op = true
        · rw [List.filter_cons_of_pos (by simpa using hds), if_pos hds]; rfl
        · rw [List.filter_cons_of_neg (by simpa using hds), if_neg hds]; rfl
      rw [hdc] at hd
      have hfin : ∀ (deep1 : Bool) (F1 : Prop), (deep1 = true → deep = true ∨ Op.descends s.op = true) →
          (F1 → F ∨ Path.hasFilter (s :: r) = true) →
          (Once root deep1 (n + 1) o.elems ∨ (F1 ∧ o.elems = [.null])) →
          (∃ deep', (deep' = true → deep = true ∨ 0 < descents (s :: r)) ∧ Once root deep' (n + (s :: r).length) out'.elems) ∨
            ((F ∨ Path.hasFilter (s :: r) = true) ∧ out'.elems = [.null]) := by
        intro deep1 F1 h1 h2 h3
        have hb : descents r + (if deep1 then 1 else 0) ≤ 1 := by
          cases deep1
          · simp; omega
          · rcases h1 rfl with h | h
            · rw [h] at hd; simp at hd ⊢; omega
            · rw [h] at hd; simp at hd ⊢; omega
        rcases evalSteps_once hv hw r (fun s hs => hu s (by simp [hs])) deep1 (n + 1) hb F1 o t1 out' t' h3 he with
          ⟨d, h4, h5⟩ | ⟨h4, h5⟩
        · refine .inl ⟨d, ?_, ?_⟩
          · intro hd'
            rcases h4 hd' with h | h
            · rcases h1 h with h | h
              · exact .inl h
              · right; rw [hdc, if_pos h]; omega
            · right; rw [hdc]; omega
          · rw [List.length_cons, show n + (r.length + 1) = n + 1 + r.length by omega]; exact h5
        · refine .inr ⟨?_, h5⟩
          rcases h4 with h | h
          · exact h2 h
          · right
            unfold Path.hasFilter at h ⊢
            rw [List.any_cons, h, Bool.or_true]
      have hfil : (s.op == .filter || s.op == .nestFilter) = true → Path.hasFilter (s :: r) = true := by
        intro h
        unfold Path.hasFilter
        rw [List.any_cons, h, Bool.true_or]
      rcases h with h | ⟨h1, h2⟩
      · have hd1 : deep = true → Op.descends s.op = false := by
          intro h
          rw [h] at hd
          by_cases hds : Op.descends s.op = true
          · rw [if_pos hds] at hd; simp at hd
          · simpa using hds
        refine hfin (deep || Op.descends s.op) (Path.hasFilter (s :: r) = true) ?_ .inr ?_
        · intro h; simpa using h
        · rcases evalStep_once hv hw (hu s (by simp)) hd1 h hs with h | ⟨h3, h4⟩
          · exact .inl h
          · exact .inr ⟨hfil h3, h4⟩
      · have hnull : Once .null false 0 out.elems := by
          rw [h2]
          exact ⟨[[]], by simp, .cons (.here _) .nil, by simp⟩
        refine hfin false F (by simp) .inl ?_
        rcases evalStep_once hv (by simp [V.WF]) (hu s (by simp)) (by simp) hnull hs with h | ⟨_, h4⟩
        · rcases once_null h with h | h
          · rw [h]; exact .inl .empty
          · exact .inr ⟨h1, h⟩
        · exact .inr ⟨h1, h4⟩
    | err e => rw [hs] at he; cases he
    | panic e => rw [hs] at he; cases he
    | stuck => rw [hs] at he; cases he

/-! ### Counting -/

theorem count_pos (v : V) : 1 ≤ count v := by
  cases v <;> simp [count]

mutual
/-- All the places of a document. -/
def allPlaces : V → List Place
  | .arr xs => [] :: elemPlaces 0 xs
  | .obj kvs => [] :: memberPlaces kvs
  | _ => [[]]
/-- All the places in the elements from position `i` on. -/
def elemPlaces (i : Nat) : List V → List Place
  | [] => []
  | v :: r => (allPlaces v).map (.index i :: ·) ++ elemPlaces (i + 1) r
/-- All the places in the members. -/
def memberPlaces : List (Bytes × V) → List Place
  | [] => []
  | (k, v) :: r => (allPlaces v).map (.name k :: ·) ++ memberPlaces r
end

mutual
theorem allPlaces_length : ∀ v, (allPlaces v).length = count v
  | .arr xs => by simp only [allPlaces, count, List.length_cons, elemPlaces_length 0 xs]; omega
  | .obj kvs => by simp only [allPlaces, count, List.length_cons, memberPlaces_length kvs]; omega
  | .null | .bool _ | .gint _ | .int _ | .float _ | .str _ | .num _ | .name _ | .re _ | .slice _ | .err _ => by
    simp [allPlaces, count]
theorem elemPlaces_length : ∀ (i : Nat) (xs : List V), (elemPlaces i xs).length = counts xs
  | _, [] => rfl
  | i, v :: r => by simp only [elemPlaces, counts, List.length_append, List.length_map, allPlaces_length v, elemPlaces_length (i + 1) r]
theorem memberPlaces_length : ∀ (kvs : List (Bytes × V)), (memberPlaces kvs).length = countm kvs
  | [] => rfl
  | (k, v) :: r => by simp only [memberPlaces, countm, List.length_append, List.length_map, allPlaces_length v, memberPlaces_length r]
end

theorem mem_elemPlaces {p : Place} {x : V} : ∀ {xs : List V} {j i : Nat}, xs[i]? = some x → p ∈ allPlaces x →
    (.index (j + i) :: p) ∈ elemPlaces j xs
  | [], _, _, h, _ => by simp at h
  | v :: r, j, 0, h, hp => by
    simp only [List.getElem?_cons_zero, Option.some.injEq] at h
    subst h
    simp [elemPlaces, hp]
  | v :: r, j, i + 1, h, hp => by
    have := mem_elemPlaces (xs := r) (j := j + 1) (i := i) (by simpa using h) hp
    rw [elemPlaces, List.mem_append]
    right
    rwa [show j + (i + 1) = j + 1 + i by omega]

theorem mem_memberPlaces {p : Place} {x : V} {k : Bytes} : ∀ {kvs : List (Bytes × V)}, (k, x) ∈ kvs → p ∈ allPlaces x →
    (.name k :: p) ∈ memberPlaces kvs
  | [], h, _ => by simp at h
  | (k', v) :: r, h, hp => by
    rw [memberPlaces, List.mem_append]
    rcases List.mem_cons.1 h with h | h
    · cases h; left; simp [hp]
    · right; exact mem_memberPlaces h hp

theorem Spec.At.mem {root v : V} {p : Place} (h : At root p v) : p ∈ allPlaces root := by
  induction h with
  | here v => cases v <;> simp [allPlaces]
  | elem hx _ ih =>
    have := mem_elemPlaces (j := 0) hx ih
    rw [Nat.zero_add] at this
    simp only [allPlaces, List.mem_cons]
    exact .inr this
  | member hx _ ih =>
    simp only [allPlaces, List.mem_cons]
    exact .inr (mem_memberPlaces hx ih)

theorem length_le_of_nodup {α : Type} [DecidableEq α] : ∀ {l m : List α}, l.Nodup → (∀ a ∈ l, a ∈ m) → l.length ≤ m.length
  | [], _, _, _ => by simp
  | a :: l, m, hn, hm => by
    rw [List.nodup_cons] at hn
    have h1 : a ∈ m := hm a (by simp)
    have := length_le_of_nodup (m := m.erase a) hn.2 (fun b hb =>
      (List.mem_erase_of_ne (by rintro rfl; exact hn.1 hb)).2 (hm b (by simp [hb])))
    rw [List.length_erase_of_mem h1] at this
    have : 0 < m.length := List.length_pos_of_mem h1
    simp only [List.length_cons]
    omega

theorem places_le_count {root : V} {ps : List Place} (hn : ps.Nodup) (h : ∀ p ∈ ps, ∃ v, At root p v) : ps.length ≤ count root := by
  rw [← allPlaces_length]
  exact length_le_of_nodup hn (fun p hp => by obtain ⟨v, h⟩ := h p hp; exact h.mem)

/-! ### Paths of names and indices -/

theorem memberOf_le_one (name : Bytes) {v : V} (hw : v.WF) : (memberOf name v).length ≤ 1 := by
  cases v
  case obj kvs =>
    rw [← lookup_eq hw.2.1]
    cases lookup kvs name <;> simp
  all_goals simp [memberOf]

theorem indexOf_le_one (neg : Bool) (n : Int) {v : V} (hw : v.WF) : (indexOf neg n v).length ≤ 1 := by
  cases v
  case obj kvs => exact memberOf_le_one _ hw
  case arr xs =>
    unfold indexOf
    dsimp only
    generalize (if neg = true ∧ n < 0 then (xs.length : Int) + n else n) = i
    split
    · cases xs[i.toNat]? <;> simp
    · simp
  all_goals simp [indexOf]

theorem mem_memberOf {name : Bytes} {v x : V} (h : x ∈ memberOf name v) : Child v x := by
  cases v
  case obj kvs =>
    obtain ⟨kv, h1, rfl⟩ := List.mem_map.1 h
    exact .inr ⟨kvs, kv.1, rfl, (List.mem_filter.1 h1).1⟩
  all_goals simp [memberOf] at h

theorem mem_indexOf {neg : Bool} {n : Int} {v x : V} (h : x ∈ indexOf neg n v) : Child v x := by
  cases v
  case obj kvs => exact mem_memberOf h
  case arr xs =>
    unfold indexOf at h
    dsimp only at h
    generalize (if neg = true ∧ n < 0 then (xs.length : Int) + n else n) = i at h
    split at h
    · exact .inl ⟨xs, rfl, List.mem_of_getElem? (by simpa using h)⟩
    · simp at h
  all_goals simp [indexOf] at h

theorem Child.wf {v x : V} (h : Child v x) (hw : v.WF) : x.WF := (h.desc .root).wf hw

theorem Spec.Single.le_one {s : Step} {f : V → List V} (h : Single s f) {v : V} (hw : v.WF) : (f v).length ≤ 1 := by
  cases h
  · exact memberOf_le_one _ hw
  · exact memberOf_le_one _ hw
  · exact memberOf_le_one _ hw
  · exact indexOf_le_one _ _ hw
  · exact indexOf_le_one _ _ hw

theorem Spec.Single.child {s : Step} {f : V → List V} (h : Single s f) {v x : V} (hx : x ∈ f v) : Child v x := by
  cases h
  · exact mem_memberOf hx
  · exact mem_memberOf hx
  · exact mem_memberOf hx
  · exact mem_indexOf hx
  · exact mem_indexOf hx

theorem follow_le_one {q : Path} {fs : List (V → List V)} (h : All2 Single q fs) : ∀ (root : V), root.WF → (follow fs root).length ≤ 1 := by
  induction h with
  | nil => intro root _; simp [follow]
  | @cons s f _ _ h _ ih =>
    intro root hr
    unfold follow
    have h1 := h.le_one hr
    have h2 : ∀ x ∈ f root, x.WF := fun x hx => (h.child hx).wf hr
    generalize f root = l at h1 h2
    match l, h1 with
    | [], _ => simp
    | [x], _ => simpa using ih x (h2 x (by simp))

theorem evalStep_single {env : Env} {oracle : Oracle} {root : V} {s : Step} {f : V → List V} (h : Single s f) (out : GoSlice) (t : Nat)
    (hw : ∀ v ∈ out.elems, v.WF) : ∃ out', evalStep env oracle root s out t = .ok (out', t) ∧ out'.elems = out.elems.flatMap f := by
  cases h with
  | dotName n =>
    obtain ⟨o, h1, h2⟩ := applySelection_flatMap (f := fun _ el acc => valsByKey env acc el (.name n) false) out.elems 0 (some [])
      (fun v hv _ acc => valsByKey_name (hw v hv) (.inl rfl))
    exact ⟨o, by simp only [evalStep, evalVals, evalVal, Res.bind_ok, isNothing]; exact congrArg (· >>= fun o => .ok (o, t)) h1,
      by simpa [GoSlice.elems] using h2⟩
  | quoted n =>
    obtain ⟨o, h1, h2⟩ := applySelection_flatMap (f := fun _ el acc => valsByKey env acc el (.str n) true) out.elems 0 (some [])
      (fun v hv _ acc => valsByKey_name (hw v hv) (.inr rfl))
    exact ⟨o, by simp only [evalStep, evalVals, evalVal, Res.bind_ok, isNothing]; exact congrArg (· >>= fun o => .ok (o, t)) h1,
      by simpa [GoSlice.elems] using h2⟩
  | bare n =>
    obtain ⟨o, h1, h2⟩ := applySelection_flatMap (f := fun _ el acc => valsByKey env acc el (.name n) true) out.elems 0 (some [])
      (fun v hv _ acc => valsByKey_name (hw v hv) (.inl rfl))
    exact ⟨o, by simp only [evalStep, evalVals, evalVal, Res.bind_ok, isNothing]; exact congrArg (· >>= fun o => .ok (o, t)) h1,
      by simpa [GoSlice.elems] using h2⟩
  | index n =>
    obtain ⟨o, h1, h2⟩ := applySelection_flatMap (f := fun _ el acc => valsByKey env acc el (.int n) true) out.elems 0 (some [])
      (fun v hv _ acc => valsByKey_int (hw v hv))
    exact ⟨o, by simp only [evalStep, evalVals, evalVal, Res.bind_ok, isNothing]; exact congrArg (· >>= fun o => .ok (o, t)) h1,
      by simpa [GoSlice.elems] using h2⟩
  | dotIndex n =>
    obtain ⟨o, h1, h2⟩ := applySelection_flatMap (f := fun _ el acc => valsByKey env acc el (.int n) false) out.elems 0 (some [])
      (fun v hv _ acc => valsByKey_int (hw v hv))
    exact ⟨o, by simp only [evalStep, evalVals, evalVal, Res.bind_ok, isNothing]; exact congrArg (· >>= fun o => .ok (o, t)) h1,
      by simpa [GoSlice.elems] using h2⟩

theorem evalSteps_single {env : Env} {oracle : Oracle} {root : V} {q : Path} {fs : List (V → List V)} (h : All2 Single q fs) :
    ∀ (out : GoSlice) (t : Nat), (∀ v ∈ out.elems, v.WF) →
    ∃ out' t', evalSteps env oracle root q out t = .ok (out', t') ∧ out'.elems = out.elems.flatMap (follow fs) := by
  induction h with
  | nil => intro out t _; exact ⟨out, t, rfl, by simp [follow]⟩
  | @cons s f _ fs h _ ih =>
    intro out t hw
    obtain ⟨o, h1, h2⟩ := evalStep_single (env := env) (oracle := oracle) (root := root) h out t hw
    obtain ⟨o2, t2, h3, h4⟩ := ih o t (by
      intro v hv
      rw [h2] at hv
      obtain ⟨x, hx, hv⟩ := List.mem_flatMap.1 hv
      exact (h.child hv).wf (hw x hx))
    refine ⟨o2, t2, ?_, ?_⟩
    · unfold evalSteps
      rw [h1]
      exact h3
    · rw [h4, h2, List.flatMap_assoc]
      rfl

/-! ### Addresses -/

/-- The step for a key. -/
def keyStep : Key → Step
  | .index i => ⟨.select, [.int (Int64.ofNat i)]⟩
  | .name s => ⟨.select, [.str s]⟩

/-- What a key selects. -/
def keySel : Key → V → List V
  | .index i => indexOf true i
  | .name s => memberOf s

theorem key_single {k : Key} (hk : ∀ i, k = .index i → i < 2 ^ 63) : Single (keyStep k) (keySel k) := by
  cases k with
  | name s => exact .quoted s
  | index i =>
    have := Single.index (Int64.ofNat i)
    rw [i64_ofNat (hk i rfl)] at this
    exact this

theorem keys_single : ∀ {pl : Place}, (∀ i, Key.index i ∈ pl → i < 2 ^ 63) → All2 Single (pl.map keyStep) (pl.map keySel)
  | [], _ => .nil
  | k :: r, h => .cons (key_single (fun i hi => h i (by simp [hi]))) (keys_single (fun i hi => h i (by simp [hi])))

theorem address_eq : ∀ {pl : Place}, (∀ i, Key.index i ∈ pl → i < 2 ^ 63) → address pl = writePath (pl.map keyStep) := by
  intro pl h
  unfold address writePath
  congr 1
  rw [List.flatMap_map]
  induction pl with
  | nil => rfl
  | cons k r ih =>
    rw [List.flatMap_cons, List.flatMap_cons, ih (fun i hi => h i (by simp [hi]))]
    congr 1
    cases k with
    | name s => rfl
    | index i =>
      have hi := h i (by simp)
      simp only [keyStep, writeStep, writeVal, bracket, writeInt, i64_ofNat hi]
      rw [if_neg (by omega)]
      rfl

theorem address_tree {env : Env} {pl : Place} (h : ∀ i, Key.index i ∈ pl → i < 2 ^ 63) : TreePath env true (pl.map keyStep) := by
  intro s hs
  obtain ⟨k, hk, rfl⟩ := List.mem_map.1 hs
  cases k with
  | name s => exact .select _ (.elem _ (.str s))
  | index i =>
    refine .select _ (.elem _ (.int _ ?_))
    intro _
    rw [i64_ofNat (h i hk)]
    omega

theorem memberOf_eq {kvs : List (Bytes × V)} (hn : (kvs.map Prod.fst).Nodup) {k : Bytes} {x : V} (h : (k, x) ∈ kvs) :
    memberOf k (.obj kvs) = [x] := by
  rw [← lookup_eq hn]
  induction kvs with
  | nil => cases h
  | cons kv r ih =>
    obtain ⟨k', v⟩ := kv
    rw [List.map_cons, List.nodup_cons] at hn
    unfold lookup
    rcases List.mem_cons.1 h with h | h
    · cases h; simp
    · rw [if_neg (by rintro rfl; exact hn.1 (List.mem_map.2 ⟨_, h, rfl⟩))]
      exact ih hn.2 h

theorem at_index_lt {root v : V} {pl : Place} (h : At root pl v) (hw : root.WF) : ∀ i, Key.index i ∈ pl → i < 2 ^ 63 := by
  induction h with
  | here => intro i hi; cases hi
  | @elem xs j x _ _ hx _ ih =>
    intro i hi
    unfold V.WF at hw
    rcases List.mem_cons.1 hi with hi | hi
    · cases hi
      have hl : j < xs.length := by
        rcases Nat.lt_or_ge j xs.length with h | h
        · exact h
        · rw [List.getElem?_eq_none h] at hx; cases hx
      omega
    · exact ih (wfs_mem hw.2 _ (List.mem_of_getElem? hx)) i hi
  | member hx _ ih =>
    intro i hi
    unfold V.WF at hw
    rcases List.mem_cons.1 hi with hi | hi
    · cases hi
    · exact ih (wfm_mem hw.2.2 _ _ hx) i hi

theorem Spec.At.reads {root v : V} {pl : Place} (h : At root pl v) : ReadAt root pl v := by
  induction h with
  | here => exact .here _
  | elem hx _ ih => exact .elem hx ih
  | member hx _ ih => exact .member hx ih

theorem Spec.ReadAt.follow {root v : V} {pl : Place} (h : ReadAt root pl v) (hw : root.WF) :
    Spec.follow (pl.map keySel) root = [v] := by
  induction h with
  | here => rfl
  | @elem xs i x _ _ hx _ ih =>
    have hx' := List.mem_of_getElem? hx
    have hl : i < xs.length := by
      rcases Nat.lt_or_ge i xs.length with h | h
      · exact h
      · rw [List.getElem?_eq_none h] at hx; cases hx
    have h1 : keySel (.index i) (.arr xs) = [x] := by
      simp only [keySel, indexOf]
      rw [if_neg (show ¬ (True ∧ (i : Int) < 0) by omega), if_pos ⟨by omega, by omega⟩, Int.toNat_natCast, hx]
      rfl
    rw [List.map_cons, Spec.follow, h1, List.flatMap_singleton]
    exact ih (wfs_mem (by unfold V.WF at hw; exact hw.2) _ hx')
  | @member kvs k x _ _ hx _ ih =>
    unfold V.WF at hw
    rw [List.map_cons, Spec.follow, show keySel (.name k) (.obj kvs) = [x] from memberOf_eq hw.2.1 hx, List.flatMap_singleton]
    exact ih (wfm_mem hw.2.2 _ _ hx)
  | @digits kvs i k x _ _ hk hx _ ih =>
    unfold V.WF at hw
    have : k = intToBytes i := hk.unique (integerText_intToBytes i)
    subst this
    rw [List.map_cons, Spec.follow, show keySel (.index i) (.obj kvs) = [x] from memberOf_eq hw.2.1 hx, List.flatMap_singleton]
    exact ih (wfm_mem hw.2.2 _ _ hx)

theorem reads_of_follow : ∀ {pl : Place} {root v : V}, v ∈ Spec.follow (pl.map keySel) root → ReadAt root pl v
  | [], root, v, h => by
    simp only [List.map_nil, follow, List.mem_singleton] at h
    subst h
    exact .here _
  | k :: r, root, v, h => by
    rw [List.map_cons, follow] at h
    obtain ⟨x, hx, hv⟩ := List.mem_flatMap.1 h
    have ih := reads_of_follow hv
    cases k with
    | name s =>
      cases root
      case obj kvs =>
        obtain ⟨kv, h1, rfl⟩ := List.mem_map.1 hx
        obtain ⟨h2, h3⟩ := List.mem_filter.1 h1
        have h3 : kv.1 = s := by simpa using h3
        exact .member (k := s) (x := kv.2) (by rw [← h3]; exact h2) ih
      all_goals simp [keySel, memberOf] at hx
    | index i =>
      cases root
      case obj kvs =>
        obtain ⟨kv, h1, rfl⟩ := List.mem_map.1 hx
        obtain ⟨h2, h3⟩ := List.mem_filter.1 h1
        have h3 : kv.1 = intToBytes i := by simpa using h3
        exact .digits (integerText_intToBytes i) (x := kv.2) (by rw [← h3]; exact h2) ih
      case arr xs =>
        simp only [keySel, indexOf] at hx
        rw [if_neg (show ¬ (True ∧ (i : Int) < 0) by omega)] at hx
        split at hx
        · rw [Int.toNat_natCast] at hx
          exact .elem (by simpa using hx) ih
        · simp at hx
      all_goals simp [keySel, indexOf] at hx

end JP
