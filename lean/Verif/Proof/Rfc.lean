import Verif.Spec.Rfc
import Verif.Proof.Locate
import Verif.Proof.SliceLaws
import Verif.Proof.Leaves
/-! Lemmas about the queries of RFC 9535. -/
namespace JP.Rfc
open Spec

/-! ### Slices -/

theorem upward_get {xs : List V} {hi c : Int} (hc : 0 < c) (hh : hi ≤ xs.length) : ∀ (l : List V) (lo : Int), 0 ≤ lo →
    (∀ i : Nat, l[i]? = if lo + i * c < hi then xs[(lo + i * c).toNat]? else none) → Upward xs hi c lo l
  | [], lo, h0, h => by
    refine .stop (Int.not_lt.1 fun hlt => ?_)
    have := h 0
    simp only [Int.natCast_zero, Int.zero_mul, Int.add_zero, hlt, if_true, List.getElem?_nil] at this
    have := List.getElem?_eq_none_iff.1 this.symm
    omega
  | x :: l, lo, h0, h => by
    have h1 := h 0
    simp only [Int.natCast_zero, Int.zero_mul, Int.add_zero, List.getElem?_cons_zero] at h1
    split at h1
    · rename_i hlt
      refine .select hlt h0 h1.symm (upward_get hc hh l (lo + c) (by omega) fun i => ?_)
      have := h (i + 1)
      rw [List.getElem?_cons_succ] at this
      have he : lo + c + i * c = lo + ((i + 1 : Nat) : Int) * c := by push_cast; rw [Int.add_mul]; omega
      rw [this, he]
    · cases h1

theorem downward_get {xs : List V} {lo c : Int} (hc : c < 0) (hl : -1 ≤ lo) : ∀ (l : List V) (hi : Int), hi < xs.length →
    (∀ i : Nat, l[i]? = if lo < hi + i * c then xs[(hi + i * c).toNat]? else none) → Downward xs lo c hi l
  | [], hi, h0, h => by
    refine .stop (Int.not_lt.1 fun hlt => ?_)
    have := h 0
    simp only [Int.natCast_zero, Int.zero_mul, Int.add_zero, hlt, if_true, List.getElem?_nil] at this
    have := List.getElem?_eq_none_iff.1 this.symm
    omega
  | x :: l, hi, h0, h => by
    have h1 := h 0
    simp only [Int.natCast_zero, Int.zero_mul, Int.add_zero, List.getElem?_cons_zero] at h1
    split at h1
    · rename_i hlt
      refine .select hlt (by omega) h1.symm (downward_get hc hl l (hi + c) (by omega) fun i => ?_)
      have := h (i + 1)
      rw [List.getElem?_cons_succ] at this
      have he : hi + c + i * c = hi + ((i + 1 : Nat) : Int) * c := by push_cast; rw [Int.add_mul]; omega
      rw [this, he]
    · cases h1

theorem lower_up (a b : Option Int) {c n : Int} (hn : 0 ≤ n) (hc : 0 < c) : lower a b c n = sliceStart n c a := by
  unfold lower sliceStart startOf normalize sliceBound
  cases a <;> simp only [Option.getD_none, Option.getD_some] <;> omega

theorem upper_up (a b : Option Int) {c n : Int} (hn : 0 ≤ n) (hc : 0 < c) : upper a b c n = sliceStop n c b := by
  unfold upper sliceStop endOf normalize sliceBound
  cases b <;> simp only [Option.getD_none, Option.getD_some] <;> omega

theorem lower_down (a b : Option Int) {c n : Int} (hn : 0 ≤ n) (hc : c < 0) : lower a b c n = sliceStop n c b := by
  unfold lower sliceStop endOf normalize sliceBound
  cases b <;> simp only [Option.getD_none, Option.getD_some] <;> omega

theorem upper_down (a b : Option Int) {c n : Int} (hn : 0 ≤ n) (hc : c < 0) : upper a b c n = sliceStart n c a := by
  unfold upper sliceStart startOf normalize sliceBound
  cases a <;> simp only [Option.getD_none, Option.getD_some] <;> omega

theorem selects_slice (a b c : Option Int) (xs : List V) : Selects (.slice a b c) (.arr xs) (sliceOf xs a b (c.getD 1)) := by
  rcases Int.lt_trichotomy (c.getD 1) 0 with h | h | h
  · refine .down h ?_
    rw [lower_down _ _ (by omega) h, upper_down _ _ (by omega) h]
    exact downward_get h (sliceStop_down _ _ _ (by omega) h).1 _ _ (sliceStart_down _ _ _ (by omega) h).2 (sliceOf_down xs a b h)
  · have : c = some 0 := by cases c with
      | none => cases h
      | some c => exact congrArg some h
    subst this
    have : sliceOf xs a b 0 = [] := by simp [sliceOf, sliceIndices]
    rw [show (some (0 : Int)).getD 1 = 0 from rfl, this]
    exact .zero
  · refine .up h ?_
    rw [lower_up _ _ (by omega) h, upper_up _ _ (by omega) h]
    exact upward_get h (sliceStop_up _ _ _ (by omega) (by omega)).2 _ _ (sliceStart_up _ _ _ (by omega) (by omega)).1 (sliceOf_up xs a b h)

/-! ### Selectors -/

/-- The selector of the code. -/
def selOf : Selector → Sel
  | .name s => .name s
  | .wild => .name []
  | .index i => .index (Int64.ofInt i)
  | .slice a b c => .slice (a.map Int64.ofInt) (b.map Int64.ofInt) (c.map Int64.ofInt)

/-- The operand of a step. -/
def valOf : Selector → Val
  | .name s => .str s
  | .wild => .str []
  | .index i => .int (Int64.ofInt i)
  | .slice a b c => .slice ⟨(a.map Int64.ofInt).map .int, (b.map Int64.ofInt).map .int, (c.map Int64.ofInt).map .int⟩

theorem selOf_is (s : Selector) : (selOf s).Is (valOf s) := by
  cases s
  · exact .str _
  · exact .str _
  · exact .int _
  · exact .slice _ _ _

theorem toInt_ofInt {i : Int} (h : InRange i) : (Int64.ofInt i).toInt = i :=
  Int64.toInt_ofInt_of_le (by have := h.1; omega) (by have := h.2; omega)

theorem boundInt_map {a : Option Int} (h : ∀ i ∈ a, InRange i) : boundInt (a.map Int64.ofInt) = a := by
  cases a with
  | none => rfl
  | some i => simp only [Option.map_some, boundInt]; rw [toInt_ofInt (h i rfl)]

theorem selects_member {s : Bytes} {v : V} (hw : v.WF) : Selects (.name s) v (memberOf s v) := by
  by_cases ho : ∃ kvs, v = .obj kvs
  · obtain ⟨kvs, rfl⟩ := ho
    unfold V.WF at hw
    by_cases hm : ∃ x, (s, x) ∈ kvs
    · obtain ⟨x, hx⟩ := hm
      rw [memberOf_eq hw.2.1 hx]
      exact .member hx
    · have : memberOf s (.obj kvs) = [] := by
        simp only [memberOf]
        rw [filter_key_none fun v hv => hm ⟨v, hv⟩]
        rfl
      rw [this]
      exact .noMember fun x hx => hm ⟨x, hx⟩
  · have : memberOf s v = [] := by
      unfold memberOf
      split
      · exact absurd ⟨_, rfl⟩ ho
      · rfl
    rw [this]
    exact .noObject fun kvs h => ho ⟨kvs, h⟩

theorem selects_index {i : Int} {v : V} (hd : ∀ kvs, v = .obj kvs → ∀ x, (writeInt i, x) ∉ kvs) :
    Selects (.index i) v (indexOf true i v) := by
  cases v with
  | arr xs =>
    have hn : (if (true : Bool) = true ∧ i < 0 then (xs.length : Int) + i else i) = normalize i xs.length := by
      unfold normalize
      simp only [true_and]
      split <;> split <;> omega
    have he : indexOf true i (.arr xs) = if 0 ≤ normalize i xs.length ∧ normalize i xs.length < xs.length then
        xs[(normalize i xs.length).toNat]?.toList else [] := by rw [← hn]; rfl
    rw [he]
    split
    · rename_i h
      obtain ⟨x, hx⟩ : ∃ x, xs[(normalize i xs.length).toNat]? = some x := ⟨_, List.getElem?_eq_getElem (by omega)⟩
      rw [hx]
      exact .element h.1 hx
    · exact .noElement (by omega)
  | obj kvs =>
    have : indexOf true i (.obj kvs) = [] := by
      simp only [indexOf, memberOf]
      rw [filter_key_none fun v hv => hd kvs rfl v (by rw [← intToBytes_write]; exact hv)]
      rfl
    rw [this]
    exact .noArray nofun
  | _ => exact .noArray nofun

/-- What the code selects is what the RFC says. -/
theorem selects_sel {s : Selector} {v : V} (hw : v.WF) (hs : s.Valid) (hn : s ≠ .wild)
    (hd : ∀ i, s = .index i → ∀ kvs, v = .obj kvs → ∀ x, (writeInt i, x) ∉ kvs) : Selects s v ((selOf s).of v) := by
  cases s with
  | name s => exact selects_member hw
  | wild => exact absurd rfl hn
  | index i =>
    simp only [selOf, Sel.of, toInt_ofInt hs]
    exact selects_index (hd i rfl)
  | slice a b c =>
    simp only [selOf, Sel.of, sliced]
    split
    · rw [boundInt_map hs.1, boundInt_map hs.2.1, boundInt_map hs.2.2]
      exact selects_slice a b c _
    · rename_i h
      exact .noSlice fun xs hx => h xs hx

theorem fits_sel {s : Selector} {v : V} (hs : s.Valid) (ha : (∃ a b c, s = .slice a b c) → IsArray v) : (selOf s).Fits v := by
  cases s with
  | slice a b c =>
    obtain ⟨xs, rfl, hl⟩ := ha ⟨a, b, c, rfl⟩
    refine ⟨xs, rfl, ?_⟩
    rw [boundInt_map hs.2.2]
    cases c with
    | none => simp only [Option.getD_none]; omega
    | some c => have := (hs.2.2 c rfl).2; simp only [Option.getD_some]; omega
  | _ => trivial

theorem bracketed_sels {sels : List Selector} {v : V} (h : ∀ s ∈ sels, Selects s v ((selOf s).of v)) :
    Bracketed sels v ((sels.map selOf).flatMap fun s => s.of v) := by
  refine ⟨sels.map fun s => (selOf s).of v, ?_, ?_⟩
  · induction sels with
    | nil => exact .nil
    | cons s r ih => exact .cons (h s (by simp)) (ih fun t ht => h t (by simp [ht]))
  · rw [List.flatMap_map, List.flatMap_def]

/-! ### Visits -/

/-- Keys in an order in which they may be visited. -/
def KeysOrdered (ks : List (Key × V)) : Prop :=
  ks.Pairwise fun a b => a.1 ≠ b.1 ∧ ∀ i j, a.1 = .index i → b.1 = .index j → i < j

/-- The nodes at and below the children at these keys, as visited. -/
def VisitsBelow (ks : List (Key × V)) (ds : List (Place × V)) : Prop :=
  (∀ p w, (p, w) ∈ ds ↔ ∃ k x r, (k, x) ∈ ks ∧ p = k :: r ∧ At x r w) ∧ ds.Pairwise fun a b => MayPrecede a.1 b.1

theorem mayPrecede_cons {k : Key} {p q : Place} (h : MayPrecede p q) : MayPrecede (k :: p) (k :: q) := by
  refine ⟨fun hp => h.1 (List.prefix_cons_inj k |>.1 hp), fun r i j h1 h2 => ?_⟩
  cases r with
  | nil =>
    simp only [List.nil_append, List.cons.injEq] at h1 h2
    rw [h1.2, h2.2] at h
    exact absurd (List.prefix_rfl) h.1
  | cons c r =>
    simp only [List.cons_append, List.cons.injEq] at h1 h2
    exact h.2 r i j h1.2 h2.2

theorem mayPrecede_keys {k k' : Key} {p q : Place} (h : k ≠ k') (ho : ∀ i j, k = .index i → k' = .index j → i < j) :
    MayPrecede (k :: p) (k' :: q) := by
  refine ⟨fun hp => h (List.cons_prefix_cons.1 hp).1.symm, fun r i j h1 h2 => ?_⟩
  cases r with
  | nil =>
    simp only [List.nil_append, List.cons.injEq] at h1 h2
    exact ho i j h1.1 h2.1
  | cons c r =>
    simp only [List.cons_append, List.cons.injEq] at h1 h2
    exact absurd (h1.1.trans h2.1.symm) h

theorem visitsBelow_cons {k : Key} {x : V} {ks : List (Key × V)} {ds es : List (Place × V)} (hk : KeysOrdered ((k, x) :: ks))
    (h1 : Visits x ds) (h2 : VisitsBelow ks es) : VisitsBelow ((k, x) :: ks) (ds.map (fun d => (k :: d.1, d.2)) ++ es) := by
  obtain ⟨hk1, hk2⟩ := List.pairwise_cons.1 hk
  constructor
  · intro p w
    rw [List.mem_append, List.mem_map, h2.1 p w]
    constructor
    · rintro (⟨⟨r, u⟩, hd, he⟩ | ⟨k', y, r, hm, rfl, ha⟩)
      · simp only [Prod.mk.injEq] at he
        obtain ⟨rfl, rfl⟩ := he
        exact ⟨k, x, r, by simp, rfl, (h1.1 _ _).1 hd⟩
      · exact ⟨k', y, r, by simp [hm], rfl, ha⟩
    · rintro ⟨k', y, r, hm, rfl, ha⟩
      rcases List.mem_cons.1 hm with he | hm
      · simp only [Prod.mk.injEq] at he
        obtain ⟨rfl, rfl⟩ := he
        exact .inl ⟨(r, w), (h1.1 _ _).2 ha, rfl⟩
      · exact .inr ⟨k', y, r, hm, rfl, ha⟩
  · rw [List.pairwise_append]
    refine ⟨List.pairwise_map.2 (h1.2.imp fun h => mayPrecede_cons h), h2.2, ?_⟩
    rintro a ha ⟨p, w⟩ hb
    obtain ⟨d, _, rfl⟩ := List.mem_map.1 ha
    obtain ⟨k', y, r, hm, rfl, _⟩ := (h2.1 p w).1 hb
    have := hk1 (k', y) hm
    exact mayPrecede_keys this.1 this.2

theorem visits_join {v : V} {ks : List (Key × V)} {ds : List (Place × V)}
    (hc : ∀ p w, At v p w ↔ (p = [] ∧ w = v) ∨ ∃ k x r, (k, x) ∈ ks ∧ p = k :: r ∧ At x r w) (h : VisitsBelow ks ds) :
    Visits v (([], v) :: ds) := by
  constructor
  · intro p w
    rw [List.mem_cons, h.1 p w, hc p w, Prod.mk.injEq]
  · rw [List.pairwise_cons]
    refine ⟨?_, h.2⟩
    rintro ⟨p, w⟩ hd
    obtain ⟨k, x, r, _, rfl, _⟩ := (h.1 p w).1 hd
    refine ⟨fun hp => ?_, fun r i j h1 _ => ?_⟩
    · exact absurd (List.prefix_nil.1 hp) nofun
    · exact absurd h1.symm (by simp)

/-- The structures among the visited nodes. -/
def structures (ds : List (Place × V)) : List V := (ds.map Prod.snd).filter isStructure

/-- The elements of an array with their keys. -/
def elemKeys (i : Nat) : List V → List (Key × V)
  | [] => []
  | x :: r => (.index i, x) :: elemKeys (i + 1) r

theorem elemKeys_snd : ∀ (i : Nat) (xs : List V), (elemKeys i xs).map Prod.snd = xs
  | _, [] => rfl
  | i, x :: r => by simp [elemKeys, elemKeys_snd (i + 1) r]

theorem mem_elemKeys {k : Key} {y : V} : ∀ {i : Nat} {xs : List V}, (k, y) ∈ elemKeys i xs ↔ ∃ j, k = .index (i + j) ∧ xs[j]? = some y
  | i, [] => by simp [elemKeys]
  | i, x :: r => by
    rw [elemKeys, List.mem_cons, mem_elemKeys (i := i + 1) (xs := r), Prod.mk.injEq]
    constructor
    · rintro (⟨rfl, rfl⟩ | ⟨j, rfl, h⟩)
      · exact ⟨0, rfl, rfl⟩
      · exact ⟨j + 1, by congr 1; omega, h⟩
    · rintro ⟨j, rfl, h⟩
      cases j with
      | zero => exact .inl ⟨rfl, (Option.some.inj h).symm⟩
      | succ j => exact .inr ⟨j, by congr 1; omega, h⟩

theorem elemKeys_ordered : ∀ (i : Nat) (xs : List V), KeysOrdered (elemKeys i xs)
  | _, [] => .nil
  | i, x :: r => by
    refine List.pairwise_cons.2 ⟨?_, elemKeys_ordered (i + 1) r⟩
    rintro ⟨k, y⟩ hm
    obtain ⟨j, rfl, _⟩ := mem_elemKeys.1 hm
    refine ⟨fun h => ?_, fun a b h1 h2 => ?_⟩
    · simp only [Key.index.injEq] at h; omega
    · simp only [Key.index.injEq] at h1 h2; omega

mutual
/-- A pre-order is an order in which the RFC allows nodes to be visited. -/
theorem preOrder_visits : ∀ {v : V} {l : List V}, PreOrder v l → v.WF → ∃ ds, Visits v ds ∧ structures ds = l
  | _, _, .arr xs l h, hw => by
    unfold V.WF at hw
    obtain ⟨ds, h1, h2⟩ := preOrders_visits (elemKeys 0 xs) h (elemKeys_snd 0 xs) (elemKeys_ordered 0 xs) (fun x hx => wfs_mem hw.2 _ hx)
    refine ⟨_, visits_join (fun p w => ?_) h1, by rw [← h2]; rfl⟩
    constructor
    · intro h
      cases h with
      | here => exact .inl ⟨rfl, rfl⟩
      | elem hx ha => exact .inr ⟨_, _, _, mem_elemKeys.2 ⟨_, rfl, hx⟩, by rw [Nat.zero_add], ha⟩
    · rintro (⟨rfl, rfl⟩ | ⟨k, x, r, hm, rfl, ha⟩)
      · exact .here _
      · obtain ⟨j, rfl, hx⟩ := mem_elemKeys.1 hm
        rw [Nat.zero_add]
        exact .elem hx ha
  | _, _, .obj kvs vs l hp h, hw => by
    unfold V.WF at hw
    have h1 : All2 (fun (kv : Bytes × V) (v : V) => kv.2 = v) kvs (kvs.map Prod.snd) := by
      have := All2.ofMap (R := fun (kv : Bytes × V) (v : V) => kv.2 = v) id Prod.snd kvs (fun _ _ => rfl)
      rwa [List.map_id] at this
    obtain ⟨kvs', hp', h2⟩ := h1.perm_right hp.symm
    have hsnd : kvs'.map Prod.snd = vs := by
      clear h hp h1 hp'
      induction h2 with
      | nil => rfl
      | cons h _ ih => rw [List.map_cons, h, ih]
    have hn : (kvs'.map Prod.fst).Nodup := (hp'.map Prod.fst).nodup_iff.1 hw.2.1
    obtain ⟨ds, h3, h4⟩ := preOrders_visits (kvs'.map fun kv => (Key.name kv.1, kv.2)) h (by rw [List.map_map, ← hsnd]; rfl)
      (by
        unfold KeysOrdered
        rw [List.pairwise_map]
        have := List.pairwise_map.1 hn
        exact this.imp fun h => ⟨fun he => h (Key.name.inj he), fun i j h1 => by cases h1⟩)
      (fun x hx => by
        obtain ⟨kv, hkv, rfl⟩ := List.mem_map.1 (hp.mem_iff.1 hx)
        exact wfm_mem hw.2.2 kv.1 kv.2 hkv)
    refine ⟨_, visits_join (fun p w => ?_) h3, by rw [← h4]; rfl⟩
    constructor
    · intro h
      cases h with
      | here => exact .inl ⟨rfl, rfl⟩
      | member hx ha => exact .inr ⟨_, _, _, List.mem_map.2 ⟨_, hp'.mem_iff.1 hx, rfl⟩, rfl, ha⟩
    · rintro (⟨rfl, rfl⟩ | ⟨k, x, r, hm, rfl, ha⟩)
      · exact .here _
      · obtain ⟨⟨k', x'⟩, hx, he⟩ := List.mem_map.1 hm
        simp only [Prod.mk.injEq] at he
        obtain ⟨rfl, rfl⟩ := he
        exact .member (hp'.mem_iff.2 hx) ha
  | _, _, .other v h, _ => by
    refine ⟨[([], v)], ⟨fun p w => ?_, by simp⟩, by simp [structures, h]⟩
    rw [List.mem_singleton, Prod.mk.injEq]
    constructor
    · rintro ⟨rfl, rfl⟩; exact .here _
    · intro ha
      cases ha with
      | here => exact ⟨rfl, rfl⟩
      | elem => cases h
      | member => cases h
theorem preOrders_visits : ∀ {vs l : List V} (ks : List (Key × V)), PreOrders vs l → ks.map Prod.snd = vs → KeysOrdered ks →
    (∀ v ∈ vs, v.WF) → ∃ ds, VisitsBelow ks ds ∧ structures ds = l
  | _, _, ks, .nil, he, _, _ => by
    cases ks with
    | nil => exact ⟨[], ⟨by simp, .nil⟩, rfl⟩
    | cons => cases he
  | _, _, ks, .cons v vs l l' h h', he, hk, hw => by
    cases ks with
    | nil => cases he
    | cons kx ks =>
      obtain ⟨k, x⟩ := kx
      simp only [List.map_cons, List.cons.injEq] at he
      obtain ⟨hx, he⟩ := he
      obtain ⟨ds, h1, h2⟩ := preOrder_visits h (hw _ (by simp))
      obtain ⟨es, h3, h4⟩ := preOrders_visits ks h' he (List.pairwise_cons.1 hk).2 (fun w h => hw w (by simp [h]))
      subst hx
      refine ⟨_, visitsBelow_cons hk h1 h3, ?_⟩
      rw [← h2, ← h4]
      simp [structures, List.map_map, Function.comp_def]
end

end JP.Rfc
