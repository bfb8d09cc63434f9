import Verif.Proof.EqTime
import Verif.Props.Values
import Verif.Props.Functions
/-!
How long comparisons take, in calls of `eqVal`.
-/
namespace JP
open Spec

variable (env : Env)

/-- What is counted is what `==` and `!=` do. -/
theorem C104_eq (ord : Ord) (hv : ord.Valid) (a b : V) : Yields2 env .eq a b (.bool (nEqVal env ord [] a b).1) ∧
    Yields2 env .ne a b (.bool (!(nEqVal env ord [] a b).1)) := by
  rw [nEqVal_same env hv]
  exact ⟨(yields2_ok rfl).2 rfl, (yields2_ok rfl).2 rfl⟩

example := C104_eq Ex.env (fun _ n => List.range n) (fun _ _ => .refl _) Ex.doc (.int 1)

/-- And what `in` and `nin` do with a list. -/
theorem C104_in (ord : Ord) (hv : ord.Valid) (v : V) (hn : ∀ e, v ≠ .err e) (xs : List V) :
    Yields2 env .in_ v (.arr xs) (.bool (nSearch env ord v true 0 xs).1) ∧ Yields2 env .nin v (.arr xs) (.bool (nSearch env ord v false 0 xs).1) := by
  rw [nSearch_same env hv, nSearch_same env hv, yields2_iff (op := .in_) rfl, yields2_iff (op := .nin) rfl]
  have h : (isNothing v || isNothing (.arr xs)) = false := by
    cases v <;> simp_all [isNothing]
  unfold opIn
  rw [if_neg (by simp [h]), if_neg (by simp [h])]
  exact ⟨rfl, rfl⟩

example := C104_in Ex.env (fun _ n => List.range n) (fun _ _ => .refl _) (.int 1) (by simp) [.int 2, Ex.doc]

/-- And what `contains` does with a list. -/
theorem C104_contains (ord : Ord) (hv : ord.Valid) (v : V) (xs : List V) :
    YieldsCall env (b! "contains") [.arr xs, v] (.bool (nSearch env ord v true 0 xs).1) :=
  call_known env (f := .contains) (by decide) (by simp [Fn.arity]) fun o => by
    have h : ∀ xs, containsElem env v xs = searchJSON env xs v true := by
      intro xs
      induction xs with
      | nil => rfl
      | cons x xs ih => rw [containsElem, searchJSON, ih]
    rw [nSearch_same env hv, ← h]
    rfl

example := C104_contains Ex.env (fun _ n => List.range n) (fun _ _ => .refl _) (.int 1) [.int 2, Ex.doc]

/-- A comparison takes no more calls than there are values on either side, whatever order members come in. -/
theorem C104_bound (ord : Ord) (hv : ord.Valid) (a b : V) (ha : KeysDistinct a) (loc : List Nat) :
    (nEqVal env ord loc a b).2 ≤ min (count a) (count b) :=
  Nat.le_min.2 ⟨nEqVal_left env hv a loc b, nEqVal_right env hv a ha loc b⟩

example := C104_bound Ex.env (fun _ n => List.range n) (fun _ _ => .refl _) (.arr [.int 1]) (.int 1)
  (.arr _ fun x hx => .other x (by simp at hx; simp [hx]) (by simp at hx; simp [hx])) []

/-- To find that a document is equal to itself takes a call for each of its values. -/
theorem C104_self (ord : Ord) (hv : ord.Valid) (a : V) (ho : Ordinary a) (hd : KeysDistinct a) (loc : List Nat) :
    nEqVal env ord loc a a = (true, count a) := by
  have he := eqVal_refl (env := env) ho hd
  exact Prod.ext ((nEqVal_same env hv a loc a).trans he) (nEqVal_self env hv a hd he loc)

example := C104_self Ex.env (fun _ n => List.range n) (fun _ _ => .refl _) (.arr [.int 1, .null])
  (.arr _ fun x hx => by simp at hx; rcases hx with rfl | rfl; exacts [.int 1, .null])
  (.arr _ fun x hx => .other x (by simp at hx; rcases hx with rfl | rfl <;> simp) (by simp at hx; rcases hx with rfl | rfl <;> simp)) []

/-- A search takes no more calls than there are values in the list, nor than its elements times the values in what is sought. -/
theorem C104_search (ord : Ord) (hv : ord.Valid) (v : V) (f : Bool) (xs : List V) (hx : KeysDistinct (.arr xs)) :
    (nSearch env ord v f 0 xs).2 + 1 ≤ count (.arr xs) ∧ (nSearch env ord v f 0 xs).2 ≤ xs.length * count v := by
  have := nSearch_le env hv v f xs 0
  exact ⟨by simp only [count]; omega, nSearch_right env hv v f xs 0 hx.elems⟩

example := C104_search Ex.env (fun _ n => List.range n) (fun _ _ => .refl _) (.int 1) true [.int 2, .null]
  (.arr _ fun x hx => .other x (by simp at hx; rcases hx with rfl | rfl <;> simp) (by simp at hx; rcases hx with rfl | rfl <;> simp))

/-- A search goes no further than the first element that is equal. -/
theorem C104_found (ord : Ord) (hv : ord.Valid) (v : V) (f : Bool) (pre post : List V) (x : V) (hx : Yields2 env .eq x v (.bool true)) :
    (nSearch env ord v f 0 (pre ++ x :: post)).2 + 1 ≤ count (.arr (pre ++ [x])) := by
  have he : eqVal env x v = true := by have := (yields2_ok rfl).1 hx; injection this with h; exact h.symm
  have := nSearch_stops env hv v f x post he pre 0
  have hc : ∀ l : List V, counts (l ++ [x]) = counts l + count x := by
    intro l
    induction l with
    | nil => simp [counts]
    | cons y l ih => simp only [List.cons_append, counts, ih]; omega
  simp only [count, hc]
  omega

example := C104_found Ex.env (fun _ n => List.range n) (fun _ _ => .refl _) .null true [.int 1] [Ex.doc] .null ((C104_eq Ex.env _ (fun _ _ => .refl _) _ _).1)

/-- A comparison of arrays goes no further than the first elements that differ. -/
theorem C104_differ (ord : Ord) (hv : ord.Valid) (loc : List Nat) (pre pre' post post' : List V) (x y : V) (hl : pre.length = pre'.length)
    (hx : Yields2 env .eq x y (.bool false)) :
    (nEqVal env ord loc (.arr (pre ++ x :: post)) (.arr (pre' ++ y :: post'))).2 ≤ count (.arr (pre ++ [x])) := by
  have he : eqVal env x y = false := by have := (yields2_ok rfl).1 hx; injection this with h; exact h.symm
  have hc : ∀ l : List V, counts (l ++ [x]) = counts l + count x := by
    intro l
    induction l with
    | nil => simp [counts]
    | cons y l ih => simp only [List.cons_append, counts, ih]; omega
  rcases nEqVal_cases env hv loc (.arr (pre ++ x :: post)) (.arr (pre' ++ y :: post')) with h | ⟨_, _, h1, h2, _, _, h⟩ | ⟨_, _, _, h1, _⟩
  · rw [h]; exact count_pos _
  · cases h1; cases h2
    rw [h]
    have := nEqElems_stops env hv loc x y post post' he pre pre' 0 hl
    simp only [count, hc]
    omega
  · cases h1

example := C104_differ Ex.env (fun _ n => List.range n) (fun _ _ => .refl _) [] [.int 1] [.int 1] [Ex.doc] [Ex.doc] (.bool true) .null rfl
  ((C104_eq Ex.env (fun _ n => List.range n) (fun _ _ => .refl _) _ _).1)

end JP
