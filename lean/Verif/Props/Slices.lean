import Verif.Proof.SliceLaws
import Verif.Props.Steps
import Verif.Props.Ex
import Verif.Proof.KRfl
/-!
The algebra of slices: C65.
-/
namespace JP
open Spec

variable {env : Env} {oracle : Oracle} {p1 p2 p3 : JSONPath} {q : Path}

namespace Spec

/-- The elements of an array. -/
def elements : V → List V
  | .arr xs => xs
  | _ => []

/-- The bound one greater: there is none after -1, the end of the array. -/
inductive NextBound : Option Int64 → Option Int64 → Prop
  | none : NextBound none none
  | some (n m : Int64) : m.toInt = n.toInt + 1 → n ≠ -1 → NextBound (some n) (some m)

end Spec

private theorem fits {vs : List V} (ha : ∀ v ∈ vs, ∃ xs, v = .arr xs) (hw : ∀ v ∈ vs, v.WF) {a b c : Option Int64}
    (hc : ∀ n, c = some n → n.toInt ≤ 1) : ∀ v ∈ vs, (Sel.slice a b c).Fits v := by
  intro v hv
  obtain ⟨xs, rfl⟩ := ha v hv
  exact C10_nonpositive_stride_fits a b c hc xs (hw _ hv)

private theorem flatMap_arr {vs : List V} {f g : V → List V} (ha : ∀ v ∈ vs, ∃ xs, v = .arr xs)
    (h : ∀ xs, f (.arr xs) = g (.arr xs)) : vs.flatMap f = vs.flatMap g := by
  induction vs with
  | nil => rfl
  | cons v vs ih =>
    obtain ⟨xs, rfl⟩ := ha v (by simp)
    rw [List.flatMap_cons, List.flatMap_cons, h, ih (fun v hv => ha v (by simp [hv]))]

private theorem wild_arr {vs : List V} {parts : List (List V)} (ha : ∀ v ∈ vs, ∃ xs, v = .arr xs) (h : All2 Children vs parts) :
    parts.flatten = vs.flatMap elements := by
  induction h with
  | nil => rfl
  | cons hc _ ih =>
    obtain ⟨xs, rfl⟩ := ha _ (List.mem_cons_self ..)
    cases hc with
    | arr => simp [elements, ih (fun v hv => ha v (by simp [hv]))]
    | other _ h => cases h

private theorem slice_eval (a b c : Option Int64) (h1 : IsCompiled env p1 q) (h2 : IsCompiled env p2 (q ++ [sliceStep a b c]))
    (root : V) (hr : root.WF) (vs : List V) (he : Eval env oracle p1 root = some (.ok (some vs)))
    (ha : ∀ v ∈ vs, ∃ xs, v = .arr xs) (hc : ∀ n, c = some n → n.toInt ≤ 1) :
    Eval env oracle p2 root = some (.ok (some (vs.flatMap (sliced a b c)))) :=
  C10_slice_partial env oracle _ _ _ a b c h1 h2 root hr vs he (fits (a := a) (b := b) ha (eval_wf hr h1 he) hc)

private theorem indexOf_get (n : Int) (xs : List V) (i : Nat) :
    (indexOf true n (.arr xs))[i]? =
      if i = 0 ∧ 0 ≤ (if n < 0 then xs.length + n else n) ∧ (if n < 0 then xs.length + n else n) < xs.length then
        xs[(if n < 0 then xs.length + n else n).toNat]? else none := by
  simp only [indexOf, true_and]
  generalize (if n < 0 then (xs.length : Int) + n else n) = k
  by_cases hk : 0 ≤ k ∧ k < xs.length
  · have hlt : k.toNat < xs.length := by omega
    rw [if_pos hk, List.getElem?_eq_getElem hlt]
    cases i with
    | zero => simp [hk.1, hk.2]
    | succ i => simp
  · rw [if_neg hk, if_neg (fun h => hk h.2)]
    rfl

/-! ### C65 The algebra of slices -/

/-- On arrays `[:]` is `[*]`. -/
theorem C65_all (hv : oracle.Valid) (h1 : IsCompiled env p1 q) (h2 : IsCompiled env p2 (q ++ [sliceStep none none none]))
    (h3 : IsCompiled env p3 (q ++ [⟨.wild, []⟩])) (root : V) (hr : root.WF) (vs : List V)
    (he : Eval env oracle p1 root = some (.ok (some vs))) (ha : ∀ v ∈ vs, ∃ xs, v = .arr xs) :
    Eval env oracle p2 root = Eval env oracle p3 root ∧ Eval env oracle p2 root = some (.ok (some (vs.flatMap elements))) := by
  obtain ⟨parts, hp, h⟩ := C11_wild env oracle _ _ _ hv h1 h3 root vs he
  rw [slice_eval _ _ _ h1 h2 root hr vs he ha (by simp), h, wild_arr ha hp]
  have : vs.flatMap (sliced none none none) = vs.flatMap elements := by
    apply flatMap_arr ha
    intro xs
    simp [sliced, elements, boundInt, sliceOf_one, sliceStart, sliceStop]
  rw [this]
  exact ⟨rfl, rfl⟩

example := C65_all Ex.valid (q := [⟨.member, [.name (b! "a")]⟩]) (env := Ex.env) ⟨⟨b! "$.a", rfl, rfl⟩, by decide⟩ ⟨⟨b! "$.a[:]", rfl, rfl⟩, by decide⟩
  ⟨⟨b! "$.a[*]", rfl, rfl⟩, by decide⟩ Ex.doc Ex.doc_wf [.arr [.int 1, .int 2, .int 3]] (run_of_runFuel 10 _ rfl) (by simp)

/-- On arrays `[:n,n:]` is `[*]`, for every `n`. -/
theorem C65_split (hv : oracle.Valid) (n : Int64) (h1 : IsCompiled env p1 q)
    (h2 : IsCompiled env p2 (q ++ [⟨.union, [.slice ⟨none, some (.int n), none⟩, .slice ⟨some (.int n), none, none⟩]⟩]))
    (h3 : IsCompiled env p3 (q ++ [⟨.wild, []⟩])) (root : V) (hr : root.WF) (vs : List V)
    (he : Eval env oracle p1 root = some (.ok (some vs))) (ha : ∀ v ∈ vs, ∃ xs, v = .arr xs) :
    Eval env oracle p2 root = Eval env oracle p3 root := by
  obtain ⟨parts, hp, h⟩ := C11_wild env oracle _ _ _ hv h1 h3 root vs he
  have hf := C12_union_partial env oracle _ _ _ _ [.slice none (some n) none, .slice (some n) none none]
    (.cons (.slice none (some n) none) (.cons (.slice (some n) none none) .nil)) h1 h2 root hr vs he (by
      intro v hv s hs
      simp only [List.mem_cons, List.not_mem_nil, or_false] at hs
      rcases hs with rfl | rfl <;> exact fits ha (eval_wf hr h1 he) (by simp) v hv)
  rw [hf, h, wild_arr ha hp]
  congr 3
  apply flatMap_arr ha
  intro xs
  simp only [List.flatMap_cons, List.flatMap_nil, List.append_nil, Sel.of, sliced, elements, boundInt, sliceOf_one, Option.getD_none]
  have hb := sliceBound_up xs.length 1 n.toInt (by omega) (by omega)
  simp only [sliceStart, sliceStop]
  simp only [show ¬ ((1 : Int) < 0) by omega, if_false, Int.sub_zero, Int.toNat_zero, List.drop_zero]
  rw [List.take_of_length_le (i := (xs.length - sliceBound xs.length 1 n.toInt : Int).toNat) (by rw [List.length_drop]; omega),
    List.take_append_drop]

example := C65_split Ex.valid (-1) (q := [⟨.member, [.name (b! "a")]⟩]) (env := Ex.env) ⟨⟨b! "$.a", rfl, rfl⟩, by decide⟩
  ⟨⟨b! "$.a[:-1,-1:]", rfl, rfl⟩, by decide⟩ ⟨⟨b! "$.a[*]", rfl, rfl⟩, by decide⟩ Ex.doc Ex.doc_wf [.arr [.int 1, .int 2, .int 3]]
  (run_of_runFuel 10 _ rfl) (by simp)

/-- `[n]` is `[n:n+1]`, unless `n` is -1. -/
theorem C65_index (n m : Int64) (hm : m.toInt = n.toInt + 1) (hn : n ≠ -1) (h1 : IsCompiled env p1 q)
    (h2 : IsCompiled env p2 (q ++ [⟨.select, [.int n]⟩])) (h3 : IsCompiled env p3 (q ++ [sliceStep (some n) (some m) none]))
    (root : V) (hr : root.WF) (vs : List V) (he : Eval env oracle p1 root = some (.ok (some vs)))
    (ha : ∀ v ∈ vs, ∃ xs, v = .arr xs) : Eval env oracle p2 root = Eval env oracle p3 root := by
  rw [slice_eval _ _ _ h1 h3 root hr vs he ha (by simp), C09_index env oracle _ _ _ n h1 h2 root hr vs he]
  have hn' : n.toInt ≠ -1 := by
    intro h; exact hn (Int64.toInt_inj.1 (by rw [h]; rfl))
  congr 3
  apply flatMap_arr ha
  intro xs
  apply List.ext_getElem?
  intro i
  simp only [sliced, boundInt, Option.getD_none]
  rw [sliceOf_up _ _ _ (by decide)]
  rw [indexOf_get]
  simp only [sliceStart, sliceStop, sliceBound, hm]
  simp only [show ¬ ((1 : Int) < 0) by omega, if_false, Int.mul_one]
  by_cases hneg : n.toInt < 0
  · simp only [hneg, show n.toInt + 1 < 0 by omega, if_true]
    split <;> split <;> first | rfl | omega | skip
    · congr 1; omega
  · simp only [hneg, show ¬ n.toInt + 1 < 0 by omega, if_false]
    split <;> split <;> first | rfl | omega | skip
    · congr 1; omega

example := C65_index (-2) (-1) (by decide) (by decide) (q := [⟨.member, [.name (b! "a")]⟩]) (env := Ex.env) (oracle := Oracle.id)
  ⟨⟨b! "$.a", rfl, rfl⟩, by decide⟩ ⟨⟨b! "$.a[-2]", rfl, rfl⟩, by decide⟩ ⟨⟨b! "$.a[-2:-1]", rfl, rfl⟩, by decide⟩ Ex.doc Ex.doc_wf
  [.arr [.int 1, .int 2, .int 3]] (run_of_runFuel 10 _ rfl) (by simp)

/-- `[-1]` is `[-1:]`. -/
theorem C65_last (h1 : IsCompiled env p1 q) (h2 : IsCompiled env p2 (q ++ [⟨.select, [.int (-1)]⟩]))
    (h3 : IsCompiled env p3 (q ++ [sliceStep (some (-1)) none none])) (root : V) (hr : root.WF) (vs : List V)
    (he : Eval env oracle p1 root = some (.ok (some vs))) (ha : ∀ v ∈ vs, ∃ xs, v = .arr xs) :
    Eval env oracle p2 root = Eval env oracle p3 root := by
  rw [slice_eval _ _ _ h1 h3 root hr vs he ha (by simp), C09_index env oracle _ _ _ (-1) h1 h2 root hr vs he]
  congr 3
  apply flatMap_arr ha
  intro xs
  apply List.ext_getElem?
  intro i
  simp only [sliced, boundInt, Option.getD_none]
  rw [sliceOf_up _ _ _ (by decide), indexOf_get]
  simp only [sliceStart, sliceStop, sliceBound, show (-1 : Int64).toInt = -1 from rfl]
  simp only [show ¬ ((1 : Int) < 0) by omega, show ((-1 : Int) < 0) by omega, if_true, if_false, Int.mul_one]
  split <;> split <;> first | rfl | omega | skip
  · congr 1; omega

example := C65_last (q := [⟨.member, [.name (b! "a")]⟩]) (env := Ex.env) (oracle := Oracle.id) ⟨⟨b! "$.a", rfl, rfl⟩, by decide⟩
  ⟨⟨b! "$.a[-1]", rfl, rfl⟩, by decide⟩ ⟨⟨b! "$.a[-1:]", rfl, rfl⟩, by decide⟩ Ex.doc Ex.doc_wf
  [.arr [.int 1, .int 2, .int 3]] (run_of_runFuel 10 _ rfl) (by simp)

/-- `[a:b:-1]` is the reverse of `[b+1:a+1]`, for every array. -/
theorem C65_reverse (a b a' b' : Option Int64) (ha : NextBound a a') (hb : NextBound b b')
    (h2 : IsCompiled env p2 [sliceStep a b (some (-1))]) (h3 : IsCompiled env p3 [sliceStep b' a' none]) (xs : List V)
    (hr : (V.arr xs).WF) :
    ∃ l, Eval env oracle p3 (.arr xs) = some (.ok (some l)) ∧ Eval env oracle p2 (.arr xs) = some (.ok (some l.reverse)) := by
  obtain ⟨p1, h1⟩ : ∃ p1, IsCompiled env p1 [] := ⟨_, ⟨b! "$", rfl, rfl⟩, by decide⟩
  have he : Eval env oracle p1 (.arr xs) = some (.ok (some [.arr xs])) := by rw [h1.eval]; rfl
  have hall : ∀ v ∈ [V.arr xs], ∃ xs, v = .arr xs := fun v hv => ⟨xs, by simpa using hv⟩
  refine ⟨_, slice_eval b' a' none h1 h3 _ hr _ he hall (by simp), ?_⟩
  rw [slice_eval a b (some (-1)) h1 h2 _ hr _ he hall (by rintro n ⟨⟩; decide)]
  congr 3
  simp only [List.flatMap_cons, List.flatMap_nil, List.append_nil, sliced]
  rw [show (boundInt (some (-1))).getD 1 = -1 from rfl, show (boundInt none).getD 1 = 1 from rfl, sliceOf_back, sliceOf_one]
  have hs : sliceStart xs.length 1 (boundInt b') = sliceStop xs.length (-1) (boundInt b) + 1 := by
    cases hb with
    | none => simp [boundInt, sliceStart, sliceStop]
    | some n m h hn =>
      have hn' : n.toInt ≠ -1 := by
        intro h; exact hn (Int64.toInt_inj.1 (by rw [h]; rfl))
      simp only [boundInt, sliceStart, sliceStop, sliceBound, h]
      simp only [show ¬ ((1 : Int) < 0) by omega, show ((-1 : Int) < 0) by omega, if_true, if_false]
      split <;> split <;> omega
  have ht : sliceStop xs.length 1 (boundInt a') = sliceStart xs.length (-1) (boundInt a) + 1 := by
    cases ha with
    | none => simp [boundInt, sliceStart, sliceStop]
    | some n m h hn =>
      have hn' : n.toInt ≠ -1 := by
        intro h; exact hn (Int64.toInt_inj.1 (by rw [h]; rfl))
      simp only [boundInt, sliceStart, sliceStop, sliceBound, h]
      simp only [show ¬ ((1 : Int) < 0) by omega, show ((-1 : Int) < 0) by omega, if_true, if_false]
      split <;> split <;> omega
  rw [hs, ht]
  congr 2
  omega

example := C65_reverse (env := Ex.env) (oracle := Oracle.id) (some 1) none (some 2) none (.some 1 2 rfl (by decide)) .none
  ⟨⟨b! "$[1::-1]", rfl, rfl⟩, by decide⟩ ⟨⟨b! "$[:2]", rfl, rfl⟩, by decide⟩ [.int 1, .int 2, .int 3] (by simp [V.WF, WFs])

/-- A slice with a stride has every `c`-th element of the slice without it. -/
theorem C65_stride (a b : Option Int64) (c : Int64) (hc : 0 < c.toInt) (h2 : IsCompiled env p2 [sliceStep a b (some c)])
    (h3 : IsCompiled env p3 [sliceStep a b none]) (xs : List V) (hr : (V.arr xs).WF) (l' : List V)
    (he' : Eval env oracle p2 (.arr xs) = some (.ok (some l'))) :
    ∃ l, Eval env oracle p3 (.arr xs) = some (.ok (some l)) ∧ ∀ i : Nat, l'[i]? = l[i * c.toInt.toNat]? := by
  obtain ⟨p1, h1⟩ : ∃ p1, IsCompiled env p1 [] := ⟨_, ⟨b! "$", rfl, rfl⟩, by decide⟩
  have he : Eval env oracle p1 (.arr xs) = some (.ok (some [.arr xs])) := by rw [h1.eval]; rfl
  have hall : ∀ v ∈ [V.arr xs], ∃ xs, v = .arr xs := fun v hv => ⟨xs, by simpa using hv⟩
  refine ⟨_, slice_eval a b none h1 h3 _ hr _ he hall (by simp), ?_⟩
  rcases C10_or_panics env oracle p2 a b (some c) h2 xs hr with ⟨m, hm⟩ | hm
  · rw [he'] at hm; simp at hm
  rw [he'] at hm
  simp only [Option.some.injEq, Res.ok.injEq] at hm
  subst hm
  intro i
  simp only [List.flatMap_cons, List.flatMap_nil, List.append_nil, sliced]
  rw [show (boundInt (some c)).getD 1 = c.toInt from rfl, show (boundInt none).getD 1 = 1 from rfl,
    sliceOf_up _ _ _ hc, sliceOf_up _ _ _ (by decide)]
  have hs : sliceStart xs.length c.toInt (boundInt a) = sliceStart xs.length 1 (boundInt a) := by
    cases a <;> simp [boundInt, sliceStart, sliceBound, show ¬ c.toInt < 0 by omega]
  have ht : sliceStop xs.length c.toInt (boundInt b) = sliceStop xs.length 1 (boundInt b) := by
    cases b <;> simp [boundInt, sliceStop, sliceBound, show ¬ c.toInt < 0 by omega]
  rw [hs, ht]
  have : ((i * c.toInt.toNat : Nat) : Int) * 1 = i * c.toInt := by
    rw [Int.mul_one, Int.natCast_mul, Int.toNat_of_nonneg (by omega)]
  rw [this]

example := C65_stride (env := Ex.env) (oracle := Oracle.id) none none 2 (by decide) ⟨⟨b! "$[::2]", rfl, rfl⟩, by decide⟩
  ⟨⟨b! "$[:]", rfl, rfl⟩, by decide⟩ [.int 1, .int 2, .int 3] (by simp [V.WF, WFs]) [.int 1, .int 3] (run_of_runFuel 10 _ (by krfl))

/-- One with a negative stride has every `c`-th element of the one that goes back step by step. -/
theorem C65_stride_back (a b : Option Int64) (c : Int64) (hc : c.toInt < 0) (h2 : IsCompiled env p2 [sliceStep a b (some c)])
    (h3 : IsCompiled env p3 [sliceStep a b (some (-1))]) (xs : List V) (hr : (V.arr xs).WF) :
    ∃ l l', Eval env oracle p3 (.arr xs) = some (.ok (some l)) ∧ Eval env oracle p2 (.arr xs) = some (.ok (some l')) ∧
      ∀ i : Nat, l'[i]? = l[i * c.toInt.natAbs]? := by
  obtain ⟨p1, h1⟩ : ∃ p1, IsCompiled env p1 [] := ⟨_, ⟨b! "$", rfl, rfl⟩, by decide⟩
  have he : Eval env oracle p1 (.arr xs) = some (.ok (some [.arr xs])) := by rw [h1.eval]; rfl
  have hall : ∀ v ∈ [V.arr xs], ∃ xs, v = .arr xs := fun v hv => ⟨xs, by simpa using hv⟩
  refine ⟨_, _, slice_eval a b (some (-1)) h1 h3 _ hr _ he hall (by rintro n ⟨⟩; decide),
    slice_eval a b (some c) h1 h2 _ hr _ he hall (by rintro n ⟨⟩; omega), ?_⟩
  intro i
  simp only [List.flatMap_cons, List.flatMap_nil, List.append_nil, sliced]
  rw [show (boundInt (some c)).getD 1 = c.toInt from rfl, show (boundInt (some (-1))).getD 1 = -1 from rfl,
    sliceOf_down _ _ _ hc, sliceOf_down _ _ _ (by decide)]
  have hs : sliceStart xs.length c.toInt (boundInt a) = sliceStart xs.length (-1) (boundInt a) := by
    cases a <;> simp [boundInt, sliceStart, sliceBound, hc]
  have ht : sliceStop xs.length c.toInt (boundInt b) = sliceStop xs.length (-1) (boundInt b) := by
    cases b <;> simp [boundInt, sliceStop, sliceBound, hc]
  rw [hs, ht]
  have : ((i * c.toInt.natAbs : Nat) : Int) * -1 = i * c.toInt := by
    rw [Int.natCast_mul, Int.mul_assoc]
    congr 1
    omega
  rw [this]

example := C65_stride_back (env := Ex.env) (oracle := Oracle.id) none (some 0) (-2) (by decide) ⟨⟨b! "$[:0:-2]", rfl, rfl⟩, by decide⟩
  ⟨⟨b! "$[:0:-1]", rfl, rfl⟩, by decide⟩ [.int 1, .int 2, .int 3] (by simp [V.WF, WFs])

/-- With stride zero nothing is selected. -/
theorem C65_stride_zero (a b : Option Int64) (h1 : IsCompiled env p1 q) (h2 : IsCompiled env p2 (q ++ [sliceStep a b (some 0)]))
    (root : V) (hr : root.WF) (vs : List V) (he : Eval env oracle p1 root = some (.ok (some vs)))
    (ha : ∀ v ∈ vs, ∃ xs, v = .arr xs) : Eval env oracle p2 root = some (.ok (some [])) := by
  rw [slice_eval a b (some 0) h1 h2 _ hr _ he ha (by rintro n ⟨⟩; decide), flatMap_arr (g := fun _ => []) ha]
  · simp
  · intro xs
    simp [sliced, boundInt, sliceOf, sliceIndices]

example := C65_stride_zero (some 1) none (q := [⟨.member, [.name (b! "a")]⟩]) (env := Ex.env) (oracle := Oracle.id) ⟨⟨b! "$.a", rfl, rfl⟩, by decide⟩
  ⟨⟨b! "$.a[1::0]", rfl, rfl⟩, by decide⟩ Ex.doc Ex.doc_wf [.arr [.int 1, .int 2, .int 3]] (run_of_runFuel 10 _ rfl) (by simp)

/-- A slice without a stride is a piece of the array. -/
theorem C65_piece (a b : Option Int64) (h2 : IsCompiled env p2 [sliceStep a b none]) (xs : List V) (hr : (V.arr xs).WF) :
    ∃ l, Eval env oracle p2 (.arr xs) = some (.ok (some l)) ∧ l <:+: xs := by
  obtain ⟨p1, h1⟩ : ∃ p1, IsCompiled env p1 [] := ⟨_, ⟨b! "$", rfl, rfl⟩, by decide⟩
  have he : Eval env oracle p1 (.arr xs) = some (.ok (some [.arr xs])) := by rw [h1.eval]; rfl
  refine ⟨_, slice_eval a b none h1 h2 _ hr _ he (fun v hv => ⟨xs, by simpa using hv⟩) (by simp), ?_⟩
  simp only [List.flatMap_cons, List.flatMap_nil, List.append_nil, sliced]
  rw [show (boundInt none).getD 1 = 1 from rfl, sliceOf_one]
  exact (List.take_prefix _ _).isInfix.trans (List.drop_suffix _ _).isInfix

/-- `$[:-1,-1:]`, `$[-2]` and `$[-2:-1]`, `$[1::-1]` and `$[:2]`. -/
example : ∃ p2 p3 p4 p5 p6 : JSONPath,
    IsCompiled Ex.env p2 [⟨.union, [.slice ⟨none, some (.int (-1)), none⟩, .slice ⟨some (.int (-1)), none, none⟩]⟩] ∧
    IsCompiled Ex.env p3 [⟨.select, [.int (-2)]⟩] ∧ IsCompiled Ex.env p4 [sliceStep (some (-2)) (some (-1)) none] ∧
    IsCompiled Ex.env p5 [sliceStep (some 1) none (some (-1))] ∧ IsCompiled Ex.env p6 [sliceStep none (some 2) none] ∧
    NextBound (some 1) (some 2) ∧
    ∀ oracle, Eval Ex.env oracle p2 (.arr [.int 1, .int 2, .int 3]) = some (.ok (some [.int 1, .int 2, .int 3])) ∧
      Eval Ex.env oracle p4 (.arr [.int 1, .int 2, .int 3]) = some (.ok (some [.int 2])) ∧
      Eval Ex.env oracle p5 (.arr [.int 1, .int 2, .int 3]) = some (.ok (some [.int 2, .int 1])) ∧
      Eval Ex.env oracle p6 (.arr [.int 1, .int 2, .int 3]) = some (.ok (some [.int 1, .int 2])) :=
  ⟨_, _, _, _, _, ⟨⟨b! "$[:-1,-1:]", rfl, rfl⟩, by decide⟩, ⟨⟨b! "$[-2]", rfl, rfl⟩, by decide⟩, ⟨⟨b! "$[-2:-1]", rfl, rfl⟩, by decide⟩,
    ⟨⟨b! "$[1::-1]", rfl, rfl⟩, by decide⟩, ⟨⟨b! "$[:2]", rfl, rfl⟩, by decide⟩, .some 1 2 rfl (by decide), fun _ =>
    ⟨run_of_runFuel 10 _ (by krfl), run_of_runFuel 10 _ (by krfl), run_of_runFuel 10 _ (by krfl), run_of_runFuel 10 _ (by krfl)⟩⟩

/-- `$[::2]` and `$[:0:-2]`. -/
example : ∃ p2 p3 : JSONPath, IsCompiled Ex.env p2 [sliceStep none none (some 2)] ∧ IsCompiled Ex.env p3 [sliceStep none (some 0) (some (-2))] ∧
    ∀ oracle, Eval Ex.env oracle p2 (.arr [.int 1, .int 2, .int 3]) = some (.ok (some [.int 1, .int 3])) ∧
      Eval Ex.env oracle p3 (.arr [.int 1, .int 2, .int 3]) = some (.ok (some [.int 3])) :=
  ⟨_, _, ⟨⟨b! "$[::2]", rfl, rfl⟩, by decide⟩, ⟨⟨b! "$[:0:-2]", rfl, rfl⟩, by decide⟩, fun _ =>
    ⟨run_of_runFuel 10 _ (by krfl), run_of_runFuel 10 _ (by krfl)⟩⟩

end JP
