import Verif.Model.Machine
import Verif.Spec.Slice
/-! The slice loop computes the slice. -/
set_option linter.unusedSimpArgs false
namespace JP
open Spec

theorem eq_of_sorted {α : Type} {R : α → α → Prop} (hi : ∀ a, ¬ R a a) (has : ∀ a b, R a b → ¬ R b a) :
    ∀ (l m : List α), l.Pairwise R → m.Pairwise R → (∀ x, x ∈ l ↔ x ∈ m) → l = m
  | [], [], _, _, _ => rfl
  | [], b :: m, _, _, h => by have := (h b).2 (by simp); simp at this
  | a :: l, [], _, _, h => by have := (h a).1 (by simp); simp at this
  | a :: l, b :: m, hl, hm, h => by
    rw [List.pairwise_cons] at hl hm
    have hab : a = b := by
      have h1 := (h a).1 (by simp)
      have h2 := (h b).2 (by simp)
      rw [List.mem_cons] at h1 h2
      rcases h1 with h1 | h1
      · exact h1
      · rcases h2 with h2 | h2
        · exact h2.symm
        · exact absurd (hm.1 a h1) (has _ _ (hl.1 b h2))
    subst hab
    rw [eq_of_sorted hi has l m hl.2 hm.2]
    intro x
    constructor
    · intro hx
      have := (h x).1 (by simp [hx])
      rw [List.mem_cons] at this
      rcases this with rfl | this
      · exact absurd (hl.1 _ hx) (hi _)
      · exact this
    · intro hx
      have := (h x).2 (by simp [hx])
      rw [List.mem_cons] at this
      rcases this with rfl | this
      · exact absurd (hm.1 _ hx) (hi _)
      · exact this

/-- Indices from `lo` up to `hi` in steps of `stride`. -/
def upIdx (len : Nat) (lo hi stride : Int) : List Nat :=
  (List.range len).filter fun i => lo ≤ i ∧ (i : Int) < hi ∧ stride ∣ (i - lo)

/-- Indices from `lo` down to `hi` in steps of `stride`. -/
def downIdx (len : Nat) (lo hi stride : Int) : List Nat :=
  (List.range len).reverse.filter fun i => hi < i ∧ (i : Int) ≤ lo ∧ stride ∣ (lo - i)

theorem mem_upIdx {len : Nat} {lo hi stride : Int} {i : Nat} :
    i ∈ upIdx len lo hi stride ↔ i < len ∧ lo ≤ i ∧ (i : Int) < hi ∧ stride ∣ (i - lo) := by
  simp [upIdx]

theorem mem_downIdx {len : Nat} {lo hi stride : Int} {i : Nat} :
    i ∈ downIdx len lo hi stride ↔ i < len ∧ hi < i ∧ (i : Int) ≤ lo ∧ stride ∣ (lo - i) := by
  simp [downIdx]

theorem upIdx_sorted (len : Nat) (lo hi stride : Int) : (upIdx len lo hi stride).Pairwise (· < ·) :=
  List.Pairwise.filter _ List.pairwise_lt_range

theorem downIdx_sorted (len : Nat) (lo hi stride : Int) : (downIdx len lo hi stride).Pairwise (· > ·) :=
  List.Pairwise.filter _ (List.pairwise_reverse.2 List.pairwise_lt_range)

theorem upIdx_nil {len : Nat} {lo hi stride : Int} (h : hi ≤ lo) : upIdx len lo hi stride = [] := by
  apply List.eq_nil_iff_forall_not_mem.2
  intro i hi'
  rw [mem_upIdx] at hi'
  omega

theorem downIdx_nil {len : Nat} {lo hi stride : Int} (h : lo ≤ hi) : downIdx len lo hi stride = [] := by
  apply List.eq_nil_iff_forall_not_mem.2
  intro i hi'
  rw [mem_downIdx] at hi'
  omega

theorem le_of_dvd_pos {s d : Int} (hs : 0 < s) (hd : 0 < d) (h : s ∣ d) : s ≤ d := Int.le_of_dvd hd h

theorem upIdx_cons {len : Nat} {lo : Nat} {hi stride : Int} (hs : 0 < stride) (h1 : (lo : Int) < hi) (h2 : lo < len) :
    upIdx len lo hi stride = lo :: upIdx len (lo + stride) hi stride := by
  refine eq_of_sorted (R := (· < ·)) (fun a => Nat.lt_irrefl a) (fun a b => Nat.lt_asymm) _ _ (upIdx_sorted _ _ _ _) ?_ ?_
  · rw [List.pairwise_cons]
    refine ⟨?_, upIdx_sorted _ _ _ _⟩
    intro i hi'
    rw [mem_upIdx] at hi'
    omega
  · intro i
    rw [List.mem_cons, mem_upIdx, mem_upIdx]
    constructor
    · rintro ⟨a, b, c, d⟩
      by_cases hil : i = lo
      · exact .inl hil
      · have := le_of_dvd_pos hs (by omega) d
        refine .inr ⟨a, by omega, c, ?_⟩
        have : (i : Int) - (lo + stride) = (i - lo) - stride := by omega
        rw [this]
        exact Int.dvd_sub d (Int.dvd_refl _)
    · rintro (rfl | ⟨a, b, c, d⟩)
      · exact ⟨h2, by omega, h1, by simp⟩
      · refine ⟨a, by omega, c, ?_⟩
        have : (i : Int) - lo = (i - (lo + stride)) + stride := by omega
        rw [this]
        exact Int.dvd_add d (Int.dvd_refl _)

theorem downIdx_cons {len : Nat} {lo : Nat} {hi stride : Int} (hs : stride < 0) (h1 : hi < (lo : Int)) (h2 : lo < len) :
    downIdx len lo hi stride = lo :: downIdx len (lo + stride) hi stride := by
  refine eq_of_sorted (R := (· > ·)) (fun a => Nat.lt_irrefl a) (fun a b => Nat.lt_asymm) _ _ (downIdx_sorted _ _ _ _) ?_ ?_
  · rw [List.pairwise_cons]
    refine ⟨?_, downIdx_sorted _ _ _ _⟩
    intro i hi'
    rw [mem_downIdx] at hi'
    omega
  · intro i
    rw [List.mem_cons, mem_downIdx, mem_downIdx]
    constructor
    · rintro ⟨a, b, c, d⟩
      by_cases hil : i = lo
      · exact .inl hil
      · have := le_of_dvd_pos (s := -stride) (by omega) (by omega) (Int.neg_dvd.2 d)
        refine .inr ⟨a, b, by omega, ?_⟩
        have : (lo : Int) + stride - i = (lo - i) + stride := by omega
        rw [this]
        exact Int.dvd_add d (Int.dvd_refl _)
    · rintro (rfl | ⟨a, b, c, d⟩)
      · exact ⟨h2, h1, by omega, by simp⟩
      · refine ⟨a, b, by omega, ?_⟩
        have : (lo : Int) - i = (lo + stride - i) - stride := by omega
        rw [this]
        exact Int.dvd_sub d (Int.dvd_refl _)

theorem i64_range (x : Int64) : -2 ^ 63 ≤ x.toInt ∧ x.toInt < 2 ^ 63 :=
  ⟨x.le_toInt, x.toInt_lt⟩

/-- Addition that does not overflow. -/
theorem i64_add {x y : Int64} (h1 : -2 ^ 63 ≤ x.toInt + y.toInt) (h2 : x.toInt + y.toInt < 2 ^ 63) :
    (x + y).toInt = x.toInt + y.toInt := by
  rw [Int64.toInt_add, Int.bmod_def]
  omega

/-- Addition of non-negative numbers that overflows. -/
theorem i64_add_over {x y : Int64} (h2 : 2 ^ 63 ≤ x.toInt + y.toInt) : (x + y).toInt < 0 := by
  have := i64_range x
  have := i64_range y
  rw [Int64.toInt_add, Int.bmod_def]
  omega

theorem goIndex_nat {src : List V} {i : Int64} {n : Nat} (h : i.toInt = n) : goIndex src i = src[n]? := by
  unfold goIndex
  rw [if_neg (by rw [Int64.lt_iff_toInt_lt, h]; simp), h]
  rfl

theorem goIndex_neg {src : List V} {i : Int64} (h : i.toInt < 0) : goIndex src i = none := by
  unfold goIndex
  rw [if_pos (by rw [Int64.lt_iff_toInt_lt]; simpa using h)]

theorem filterMap_cons_get {src : List V} {n : Nat} {l : List Nat} {v : V} (h : src[n]? = some v) :
    (n :: l).filterMap (src[·]?) = v :: l.filterMap (src[·]?) := by
  simp [List.filterMap_cons, h]

/-- The loop that goes up. -/
theorem sliceLoop_up {src : List V} {stop stride : Int64} (hs : 0 < stride.toInt)
    (hstop : stop.toInt ≤ src.length) : ∀ (f : Nat) (i : Int64) (acc : List V), 0 ≤ i.toInt →
    stop.toInt - i.toInt + 1 ≤ f → 1 ≤ f →
    ((∀ j ∈ upIdx src.length i.toInt stop.toInt stride.toInt, (j : Int) + stride.toInt < 2 ^ 63) →
      sliceLoop true src stop stride f i acc =
        .ok (acc ++ (upIdx src.length i.toInt stop.toInt stride.toInt).filterMap (src[·]?))) ∧
    ((∃ j ∈ upIdx src.length i.toInt stop.toInt stride.toInt, 2 ^ 63 ≤ (j : Int) + stride.toInt) →
      sliceLoop true src stop stride f i acc = .panic "index out of range")
  | 0, _, _, _, _, h => by omega
  | f + 1, i, acc, hi, hf, _ => by
    obtain ⟨n, hn⟩ : ∃ n : Nat, i.toInt = n := ⟨i.toInt.toNat, by omega⟩
    unfold sliceLoop
    by_cases hlt : i.toInt < stop.toInt
    · have hget : src[n]? = some src[n] := List.getElem?_eq_getElem (by omega)
      have hc : (if true = true then i < stop else i > stop) := by
        simpa [Int64.lt_iff_toInt_lt] using hlt
      rw [if_pos hc, goIndex_nat hn, hget, hn, upIdx_cons hs (by omega) (by omega), filterMap_cons_get hget]
      simp only
      by_cases hov : (n : Int) + stride.toInt < 2 ^ 63
      · have hadd : (i + stride).toInt = n + stride.toInt := by rw [← hn]; exact i64_add (by omega) (by omega)
        have ih := sliceLoop_up hs hstop f (i + stride) (acc ++ [src[n]]) (by omega) (by omega) (by omega)
        rw [hadd] at ih
        constructor
        · intro h
          rw [ih.1 (fun j hj => h j (by simp [hj]))]
          simp
        · rintro ⟨j, hj, hj2⟩
          rw [List.mem_cons] at hj
          rcases hj with rfl | hj
          · omega
          · exact ih.2 ⟨j, hj, hj2⟩
      · have hneg : (i + stride).toInt < 0 := i64_add_over (by omega)
        constructor
        · intro h; exact absurd (h n (by simp)) hov
        · intro _
          obtain ⟨f', rfl⟩ : ∃ f', f = f' + 1 := ⟨f - 1, by omega⟩
          unfold sliceLoop
          rw [if_pos (by simp only [if_true, Int64.lt_iff_toInt_lt]; omega), goIndex_neg hneg]
    · have hc : ¬ (if true = true then i < stop else i > stop) := by
        simpa [Int64.lt_iff_toInt_lt] using hlt
      rw [if_neg hc, upIdx_nil (by omega)]
      simp

/-- The loop that goes down; the index does not overflow. -/
theorem sliceLoop_down {src : List V} {stop stride : Int64} (hs : stride.toInt < 0)
    (hstop : -1 ≤ stop.toInt) : ∀ (f : Nat) (i : Int64) (acc : List V), i.toInt < src.length →
    i.toInt - stop.toInt + 1 ≤ f → 1 ≤ f →
    sliceLoop false src stop stride f i acc =
      .ok (acc ++ (downIdx src.length i.toInt stop.toInt stride.toInt).filterMap (src[·]?))
  | 0, _, _, _, _, h => by omega
  | f + 1, i, acc, hi, hf, _ => by
    unfold sliceLoop
    by_cases hlt : stop.toInt < i.toInt
    · obtain ⟨n, hn⟩ : ∃ n : Nat, i.toInt = n := ⟨i.toInt.toNat, by omega⟩
      have hget : src[n]? = some src[n] := List.getElem?_eq_getElem (by omega)
      have hc : (if false = true then i < stop else i > stop) := by
        simpa [Int64.lt_iff_toInt_lt] using hlt
      rw [if_pos hc, goIndex_nat hn, hget, hn, downIdx_cons hs (by omega) (by omega), filterMap_cons_get hget]
      simp only
      have := i64_range stride
      have := i64_range i
      have hadd : (i + stride).toInt = n + stride.toInt := by rw [← hn]; exact i64_add (by omega) (by omega)
      rw [sliceLoop_down hs hstop f (i + stride) (acc ++ [src[n]]) (by omega) (by omega) (by omega), hadd]
      simp
    · have hc : ¬ (if false = true then i < stop else i > stop) := by
        simpa [Int64.lt_iff_toInt_lt] using hlt
      rw [if_neg hc, downIdx_nil (by omega)]
      simp

/-- The integer value of an optional bound; an expression counts as 0. -/
def optInt (b : Option Bound) : Option Int := b.map fun b => b.cvi.toInt

/-- The stride of a slice. -/
def Slice.strideInt (s : Slice) : Int := (optInt s.stride).getD 1

theorem i64_neg {x : Int64} (h : x.toInt ≠ -2 ^ 63) : (-x).toInt = -x.toInt := by
  have := i64_range x
  rw [Int64.toInt_neg, Int.bmod_def]
  omega

theorem i64_sub {x y : Int64} (h1 : -2 ^ 63 ≤ x.toInt - y.toInt) (h2 : x.toInt - y.toInt < 2 ^ 63) :
    (x - y).toInt = x.toInt - y.toInt := by
  rw [Int64.toInt_sub, Int.bmod_def]
  omega

theorem i64_ofNat {n : Nat} (h : n < 2 ^ 63) : (Int64.ofNat n).toInt = n := by
  rw [Int64.toInt_ofNat_of_lt h]

theorem clampUp {x l : Int64} {n : Nat} (hl : l.toInt = n) :
    (if x > l then l else if x < 0 then (if x + l < 0 then 0 else x + l) else x).toInt =
      max 0 (min (if x.toInt < 0 then x.toInt + n else x.toInt) n) := by
  have hx := i64_range x
  have hl' := i64_range l
  have h0 : (0 : Int64).toInt = 0 := rfl
  simp only [gt_iff_lt, Int64.lt_iff_toInt_lt, hl, h0]
  by_cases h1 : x.toInt < 0
  · have ha : (x + l).toInt = x.toInt + n := by rw [← hl]; exact i64_add (by omega) (by omega)
    rw [if_neg (by omega), if_pos h1, if_pos h1, ha]
    split
    · rw [h0]; omega
    · rw [ha]; omega
  · rw [if_neg h1, if_neg h1]
    split
    · rw [hl]; omega
    · omega

theorem clampDown {x l : Int64} {n : Nat} (hl : l.toInt = n) :
    (if x ≥ l then l - 1 else if x < 0 then (if x + l < 0 then -1 else x + l) else x).toInt =
      max (-1) (min (if x.toInt < 0 then x.toInt + n else x.toInt) (n - 1)) := by
  have hx := i64_range x
  have hl' := i64_range l
  have h0 : (0 : Int64).toInt = 0 := rfl
  have h1 : (1 : Int64).toInt = 1 := rfl
  have hm1 : (-1 : Int64).toInt = -1 := rfl
  have hs : (l - 1).toInt = n - 1 := by rw [← hl, ← h1]; exact i64_sub (by omega) (by omega)
  simp only [ge_iff_le, Int64.le_iff_toInt_le, Int64.lt_iff_toInt_lt, hl, h0]
  by_cases h1 : x.toInt < 0
  · have ha : (x + l).toInt = x.toInt + n := by rw [← hl]; exact i64_add (by omega) (by omega)
    rw [if_neg (by omega), if_pos h1, if_pos h1, ha]
    split
    · rw [hm1]; omega
    · rw [ha]; omega
  · rw [if_neg h1, if_neg h1]
    split
    · rw [hs]; omega
    · omega

theorem clampStop {x l : Int64} {n : Nat} (hl : l.toInt = n) :
    (if x > l then l else if x < 0 then (if x + l < 0 then -1 else x + l) else x).toInt =
      max (-1) (min (if x.toInt < 0 then x.toInt + n else x.toInt) n) := by
  have hx := i64_range x
  have hl' := i64_range l
  have h0 : (0 : Int64).toInt = 0 := rfl
  have hm1 : (-1 : Int64).toInt = -1 := rfl
  simp only [gt_iff_lt, Int64.lt_iff_toInt_lt, hl, h0]
  by_cases h1 : x.toInt < 0
  · have ha : (x + l).toInt = x.toInt + n := by rw [← hl]; exact i64_add (by omega) (by omega)
    rw [if_neg (by omega), if_pos h1, if_pos h1, ha]
    split
    · rw [hm1]; omega
    · rw [ha]; omega
  · rw [if_neg h1, if_neg h1]
    split
    · rw [hl]; omega
    · omega

/-- The stride as the Go code computes it. -/
def Slice.stride64 (s : Slice) : Int64 := match s.stride with | some b => b.cvi | none => 1

theorem stride64_toInt (s : Slice) : s.stride64.toInt = s.strideInt := by
  unfold Slice.stride64 Slice.strideInt optInt
  cases s.stride <;> rfl

theorem sliceEval_eq_up {s : Slice} {l : Int64} (h : ¬ s.stride64 < 0) :
    sliceEval s l =
      (let start : Int64 := match s.start with
        | some b => b.cvi
        | none => if s.stride64 < 0 then l - 1 else 0
       if start > l then l else if start < 0 then (if start + l < 0 then 0 else start + l) else start,
       let stop : Int64 := match s.stop with
        | some b => b.cvi
        | none => if s.stride64 < 0 then -l - 1 else l
       if stop > l then l else if stop < 0 then (if stop + l < 0 then 0 else stop + l) else stop,
       s.stride64) := by
  unfold sliceEval
  exact if_neg h

theorem sliceEval_eq_down {s : Slice} {l : Int64} (h : s.stride64 < 0) :
    sliceEval s l =
      (let start : Int64 := match s.start with
        | some b => b.cvi
        | none => if s.stride64 < 0 then l - 1 else 0
       if start ≥ l then l - 1 else if start < 0 then (if start + l < 0 then -1 else start + l) else start,
       let stop : Int64 := match s.stop with
        | some b => b.cvi
        | none => if s.stride64 < 0 then -l - 1 else l
       if stop > l then l else if stop < 0 then (if stop + l < 0 then -1 else stop + l) else stop,
       s.stride64) := by
  unfold sliceEval
  exact if_pos h

/-- `sliceEval` for a stride that is not negative. -/
theorem sliceEval_up (s : Slice) (n : Nat) (hn : n < 2 ^ 63) (hs : 0 ≤ s.strideInt) :
    (sliceEval s (Int64.ofNat n)).2.2 = s.stride64 ∧
    (sliceEval s (Int64.ofNat n)).1.toInt = sliceStart n s.strideInt (optInt s.start) ∧
    (sliceEval s (Int64.ofNat n)).2.1.toInt = sliceStop n s.strideInt (optInt s.stop) := by
  have hl := i64_ofNat hn
  have hlt : ¬ s.stride64 < 0 := by rw [Int64.lt_iff_toInt_lt, stride64_toInt]; show ¬ _ < (0 : Int); omega
  rw [sliceEval_eq_up hlt]
  refine ⟨rfl, ?_, ?_⟩
  · dsimp only
    rw [clampUp hl]
    cases s.start with
    | none =>
      have h0 : (0 : Int64).toInt = 0 := rfl
      have h : (if s.stride64 < 0 then Int64.ofNat n - 1 else 0) = 0 := if_neg hlt
      simp only [h, optInt, Option.map_none, sliceStart, h0]
      rw [if_neg (by omega : ¬ s.strideInt < 0)]
      omega
    | some b =>
      simp only [optInt, Option.map_some, sliceStart, sliceBound]
      rw [if_neg (by omega : ¬ s.strideInt < 0)]
  · dsimp only
    rw [clampUp hl]
    cases s.stop with
    | none =>
      have h : (if s.stride64 < 0 then -Int64.ofNat n - 1 else Int64.ofNat n) = Int64.ofNat n := if_neg hlt
      simp only [h, optInt, Option.map_none, sliceStop, hl]
      rw [if_neg (by omega : ¬ s.strideInt < 0)]
      omega
    | some b =>
      simp only [optInt, Option.map_some, sliceStop, sliceBound]
      rw [if_neg (by omega : ¬ s.strideInt < 0)]

/-- `sliceEval` for a negative stride; the stop may be one beyond the last element. -/
theorem sliceEval_down (s : Slice) (n : Nat) (hn : n < 2 ^ 63) (hs : s.strideInt < 0) :
    (sliceEval s (Int64.ofNat n)).2.2 = s.stride64 ∧
    (sliceEval s (Int64.ofNat n)).1.toInt = sliceStart n s.strideInt (optInt s.start) ∧
    ((sliceEval s (Int64.ofNat n)).2.1.toInt = sliceStop n s.strideInt (optInt s.stop) ∨
     (sliceEval s (Int64.ofNat n)).2.1.toInt = n ∧ sliceStop n s.strideInt (optInt s.stop) = n - 1) := by
  have hl := i64_ofNat hn
  have hlt : s.stride64 < 0 := by rw [Int64.lt_iff_toInt_lt, stride64_toInt]; show _ < (0 : Int); omega
  have h1 : (1 : Int64).toInt = 1 := rfl
  rw [sliceEval_eq_down hlt]
  refine ⟨rfl, ?_, ?_⟩
  · dsimp only
    rw [clampDown hl]
    cases s.start with
    | none =>
      have h : (if s.stride64 < 0 then Int64.ofNat n - 1 else 0) = Int64.ofNat n - 1 := if_pos hlt
      have hm : (Int64.ofNat n - 1).toInt = n - 1 := by rw [← hl, ← h1]; exact i64_sub (by omega) (by omega)
      simp only [h, optInt, Option.map_none, sliceStart, hm]
      rw [if_pos hs]
      split <;> omega
    | some b =>
      simp only [optInt, Option.map_some, sliceStart, sliceBound]
      rw [if_pos hs]
  · dsimp only
    rw [clampStop hl]
    cases s.stop with
    | none =>
      have h : (if s.stride64 < 0 then -Int64.ofNat n - 1 else Int64.ofNat n) = -Int64.ofNat n - 1 := if_pos hlt
      have hneg : (-Int64.ofNat n).toInt = -n := by rw [i64_neg (by omega), hl]
      have hm : (-Int64.ofNat n - 1).toInt = -n - 1 := by rw [i64_sub (by omega) (by omega), hneg, h1]
      simp only [h, optInt, Option.map_none, sliceStop, hm]
      rw [if_pos hs]
      left
      rw [if_pos (by omega)]
      omega
    | some b =>
      simp only [optInt, Option.map_some, sliceStop, sliceBound]
      rw [if_pos hs]
      omega

theorem sliceBound_up (n s b : Int) (hn : 0 ≤ n) (hs : 0 ≤ s) : 0 ≤ sliceBound n s b ∧ sliceBound n s b ≤ n := by
  unfold sliceBound
  simp only
  rw [if_neg (by omega : ¬ s < 0)]
  omega

theorem sliceBound_down (n s b : Int) (hn : 0 ≤ n) (hs : s < 0) : -1 ≤ sliceBound n s b ∧ sliceBound n s b < n := by
  unfold sliceBound
  simp only
  rw [if_pos hs]
  omega

theorem sliceStart_up (n s : Int) (b : Option Int) (hn : 0 ≤ n) (hs : 0 ≤ s) : 0 ≤ sliceStart n s b ∧ sliceStart n s b ≤ n := by
  cases b with
  | none => simp only [sliceStart]; rw [if_neg (by omega)]; omega
  | some b => exact sliceBound_up n s b hn hs

theorem sliceStop_up (n s : Int) (b : Option Int) (hn : 0 ≤ n) (hs : 0 ≤ s) : 0 ≤ sliceStop n s b ∧ sliceStop n s b ≤ n := by
  cases b with
  | none => simp only [sliceStop]; rw [if_neg (by omega)]; omega
  | some b => exact sliceBound_up n s b hn hs

theorem sliceStart_down (n s : Int) (b : Option Int) (hn : 0 ≤ n) (hs : s < 0) : -1 ≤ sliceStart n s b ∧ sliceStart n s b < n := by
  cases b with
  | none => simp only [sliceStart]; rw [if_pos hs]; omega
  | some b => exact sliceBound_down n s b hn hs

theorem sliceStop_down (n s : Int) (b : Option Int) (hn : 0 ≤ n) (hs : s < 0) : -1 ≤ sliceStop n s b ∧ sliceStop n s b < n := by
  cases b with
  | none => simp only [sliceStop]; rw [if_pos hs]; omega
  | some b => exact sliceBound_down n s b hn hs

/-- The indices that a slice selects from an array of `n` elements. -/
def Slice.indices (s : Slice) (n : Nat) : List Nat :=
  sliceIndices n (optInt s.start) (optInt s.stop) s.strideInt

/-- A slice of an array: the elements that the rule selects, or a panic when the index overflows. -/
theorem sliceVals_spec (src : List V) (s : Slice) (hn : src.length < 2 ^ 63) :
    ((∀ j ∈ s.indices src.length, (j : Int) + s.strideInt < 2 ^ 63) →
      sliceVals src s = .ok (sliceOf src (optInt s.start) (optInt s.stop) s.strideInt)) ∧
    ((∃ j ∈ s.indices src.length, 2 ^ 63 ≤ (j : Int) + s.strideInt) →
      sliceVals src s = .panic "index out of range") := by
  have h0 : (0 : Int64).toInt = 0 := rfl
  have e64 := stride64_toInt s
  unfold sliceVals sliceOf Slice.indices sliceIndices
  dsimp only
  by_cases hs : s.strideInt < 0
  · obtain ⟨h1, h2, h3⟩ := sliceEval_down s src.length hn hs
    generalize sliceEval s (Int64.ofNat src.length) = ev at h1 h2 h3 ⊢
    obtain ⟨i, j, k⟩ := ev
    dsimp only at h1 h2 h3 ⊢
    rw [h1, if_neg (show ¬ s.stride64 > 0 by rw [gt_iff_lt, Int64.lt_iff_toInt_lt, h0, e64]; omega),
      if_pos (show s.stride64 < 0 by rw [Int64.lt_iff_toInt_lt, h0, e64]; omega)]
    have a := sliceStart_down src.length s.strideInt (optInt s.start) (by omega) hs
    have b := sliceStop_down src.length s.strideInt (optInt s.stop) (by omega) hs
    rw [sliceLoop_down (by omega) (by omega) _ _ _ (by omega) (by omega) (by omega), h2, e64,
      if_neg (by omega), if_pos hs]
    have hst : downIdx src.length (sliceStart src.length s.strideInt (optInt s.start))
        j.toInt s.strideInt =
        downIdx src.length (sliceStart src.length s.strideInt (optInt s.start))
        (sliceStop src.length s.strideInt (optInt s.stop)) s.strideInt := by
      rcases h3 with h3 | ⟨h3, h4⟩
      · rw [h3]
      · rw [downIdx_nil (by omega), downIdx_nil (by omega)]
    rw [hst]
    refine ⟨fun _ => rfl, ?_⟩
    rintro ⟨j, hj, hj2⟩
    have := (mem_downIdx (len := src.length)).1 hj
    omega
  · obtain ⟨h1, h2, h3⟩ := sliceEval_up s src.length hn (by omega)
    by_cases hz : 0 < s.strideInt
    · rw [h1, if_pos (show s.stride64 > 0 by rw [gt_iff_lt, Int64.lt_iff_toInt_lt, h0, e64]; omega), if_pos hz]
      have a := sliceStart_up src.length s.strideInt (optInt s.start) (by omega) (by omega)
      have b := sliceStop_up src.length s.strideInt (optInt s.stop) (by omega) (by omega)
      have := sliceLoop_up (src := src) (stop := (sliceEval s (Int64.ofNat src.length)).2.1) (stride := s.stride64)
        (by omega) (by omega) (src.length + 2) (sliceEval s (Int64.ofNat src.length)).1 [] (by omega) (by omega) (by omega)
      rw [h2, h3, e64] at this
      exact this
    · rw [h1, if_neg (show ¬ s.stride64 > 0 by rw [gt_iff_lt, Int64.lt_iff_toInt_lt, h0, e64]; omega),
        if_neg (show ¬ s.stride64 < 0 by rw [Int64.lt_iff_toInt_lt, h0, e64]; omega), if_neg hz, if_neg hs]
      simp
end JP
