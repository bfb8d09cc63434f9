import Verif.Proof.Slice
/-! The elements of a slice, one by one. -/
namespace JP
open Spec

theorem upIdx_get {len : Nat} {hi c : Int} (hc : 0 < c) (hh : hi ≤ len) : ∀ (i : Nat) (lo : Int), 0 ≤ lo →
    (upIdx len lo hi c)[i]? = if lo + i * c < hi then some (lo + i * c).toNat else none
  | i, lo, h0 => by
    by_cases h : lo < hi
    · obtain ⟨n, rfl⟩ := Int.eq_ofNat_of_zero_le h0
      rw [upIdx_cons hc h (by omega)]
      cases i with
      | zero => simp [h]
      | succ i =>
        rw [List.getElem?_cons_succ, upIdx_get hc hh i _ (by omega)]
        have : (n : Int) + c + i * c = n + ((i + 1 : Nat) : Int) * c := by push_cast; rw [Int.add_mul]; omega
        rw [this]
    · rw [upIdx_nil (by omega)]
      have : 0 ≤ (i : Int) * c := Int.mul_nonneg (by omega) (by omega)
      rw [if_neg (by omega)]
      rfl

theorem downIdx_get {len : Nat} {hi c : Int} (hc : c < 0) (hh : -1 ≤ hi) : ∀ (i : Nat) (lo : Int), lo < len →
    (downIdx len lo hi c)[i]? = if hi < lo + i * c then some (lo + i * c).toNat else none
  | i, lo, h0 => by
    by_cases h : hi < lo
    · obtain ⟨n, rfl⟩ := Int.eq_ofNat_of_zero_le (show 0 ≤ lo by omega)
      rw [downIdx_cons hc h (by omega)]
      cases i with
      | zero => simp [h]
      | succ i =>
        rw [List.getElem?_cons_succ, downIdx_get hc hh i _ (by omega)]
        have : (n : Int) + c + i * c = n + ((i + 1 : Nat) : Int) * c := by push_cast; rw [Int.add_mul]; omega
        rw [this]
    · rw [downIdx_nil (by omega)]
      have : (i : Int) * c ≤ 0 := Int.mul_nonpos_of_nonneg_of_nonpos (by omega) (by omega)
      rw [if_neg (by omega)]
      rfl

theorem filterMap_get {α : Type} (xs : List α) : ∀ (l : List Nat), (∀ j ∈ l, j < xs.length) → ∀ i : Nat,
    (l.filterMap (xs[·]?))[i]? = l[i]?.bind (xs[·]?)
  | [], _, i => by simp
  | j :: l, h, i => by
    have hlt := h j (by simp)
    have hj : xs[j]? = some xs[j] := List.getElem?_eq_getElem hlt
    rw [List.filterMap_cons, hj]
    cases i with
    | zero => simp [hj]
    | succ i => simpa using filterMap_get xs l (fun k hk => h k (by simp [hk])) i

/-- The elements of a slice that leads upwards. -/
theorem sliceOf_up {α : Type} (xs : List α) (a b : Option Int) {c : Int} (hc : 0 < c) (i : Nat) :
    (sliceOf xs a b c)[i]? = if sliceStart xs.length c a + i * c < sliceStop xs.length c b then
      xs[(sliceStart xs.length c a + i * c).toNat]? else none := by
  have h1 := sliceStart_up xs.length c a (by omega) (by omega)
  have h2 := sliceStop_up xs.length c b (by omega) (by omega)
  have hs : sliceIndices xs.length a b c = upIdx xs.length (sliceStart xs.length c a) (sliceStop xs.length c b) c := by
    simp only [sliceIndices, hc, if_true, upIdx]
  rw [sliceOf, hs, filterMap_get, upIdx_get hc h2.2 i _ h1.1]
  · split <;> rfl
  · intro j hj; exact (mem_upIdx.1 hj).1

/-- The elements of a slice that leads downwards. -/
theorem sliceOf_down {α : Type} (xs : List α) (a b : Option Int) {c : Int} (hc : c < 0) (i : Nat) :
    (sliceOf xs a b c)[i]? = if sliceStop xs.length c b < sliceStart xs.length c a + i * c then
      xs[(sliceStart xs.length c a + i * c).toNat]? else none := by
  have h1 := sliceStart_down xs.length c a (by omega) hc
  have h2 := sliceStop_down xs.length c b (by omega) hc
  have hs : sliceIndices xs.length a b c = downIdx xs.length (sliceStart xs.length c a) (sliceStop xs.length c b) c := by
    simp only [sliceIndices, hc, if_true, if_neg (show ¬ 0 < c by omega), downIdx]
  rw [sliceOf, hs, filterMap_get, downIdx_get hc h2.1 i _ h1.2]
  · split <;> rfl
  · intro j hj; exact (mem_downIdx.1 hj).1

/-- A slice without a stride is a piece of the list. -/
theorem sliceOf_one {α : Type} (xs : List α) (a b : Option Int) :
    sliceOf xs a b 1 = (xs.drop (sliceStart xs.length 1 a).toNat).take (sliceStop xs.length 1 b - sliceStart xs.length 1 a).toNat := by
  have h1 := sliceStart_up xs.length 1 a (by omega) (by omega)
  have h2 := sliceStop_up xs.length 1 b (by omega) (by omega)
  apply List.ext_getElem?
  intro i
  rw [sliceOf_up xs a b (by decide), List.getElem?_take, List.getElem?_drop]
  split
  · rw [if_pos (by omega)]
    congr 1
    omega
  · rw [if_neg (by omega)]

/-- One that goes back step by step is a piece of the list, reversed. -/
theorem sliceOf_back {α : Type} (xs : List α) (a b : Option Int) :
    sliceOf xs a b (-1) = ((xs.drop (sliceStop xs.length (-1) b + 1).toNat).take
      (sliceStart xs.length (-1) a - sliceStop xs.length (-1) b).toNat).reverse := by
  have h1 := sliceStart_down xs.length (-1) a (by omega) (by omega)
  have h2 := sliceStop_down xs.length (-1) b (by omega) (by omega)
  apply List.ext_getElem?
  intro i
  rw [sliceOf_down xs a b (by decide)]
  have hlen : (((xs.drop (sliceStop xs.length (-1) b + 1).toNat).take
      (sliceStart xs.length (-1) a - sliceStop xs.length (-1) b).toNat).length : Int) =
      max 0 (sliceStart xs.length (-1) a - sliceStop xs.length (-1) b) := by
    rw [List.length_take, List.length_drop]; omega
  split
  · rename_i h
    rw [List.getElem?_reverse (by omega), List.getElem?_take, if_pos (by omega), List.getElem?_drop]
    congr 1
    omega
  · rename_i h
    rw [List.getElem?_eq_none]
    rw [List.length_reverse]
    omega

end JP
