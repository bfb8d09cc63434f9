import Verif.Proof.JsEq
import Verif.Props.Values
import Verif.Proof.Quote
/-!
The predefined functions: C26-C28, C44.

`YieldsCall env f args r` says that `f(e1, ..., en)` has the value `r` whenever the arguments have the values
`args`.
-/
namespace JP
open Spec

variable (env : Env)

theorem call_known {f : Fn} {id : Bytes} {args : List V} {r : V} (hid : Fn.ofName id = some f)
    (hn : ∀ na, f.arity = some na → args.length = na) (h : ∀ ord, f.apply env ord args = .ok r) : YieldsCall env id args r := by
  refine yieldsCall_of fun ord => ?_
  unfold call
  simp only [hid]
  cases ha : f.arity with
  | none => exact h ord
  | some na => simp only [hn na ha, ne_eq, not_true_eq_false, if_false]; exact h ord

/-! ### C26 min and max -/

/-- A list of numbers, the first not a boolean. -/
def Numbers (xs : List V) : Prop :=
  (∀ x ∈ xs, ∃ n, arithmetic? x = some n) ∧ ∀ b r, xs ≠ .bool b :: r

/-- No element is NaN. -/
def NoNaN (xs : List V) : Prop := ∀ f, .float f ∈ xs → f.isNaN = false

/-- `r` is (as far as `==` can tell) an element of the list, and `bound` (`<=` or `>=`) relates it to every element. -/
def IsExtreme (bound : Op) (xs : List V) (r : V) : Prop :=
  (∃ x ∈ xs, Yields2 env .eq r x (.bool true)) ∧ ∀ x ∈ xs, Yields2 env bound r x (.bool true)

private theorem isArith_of {v : V} {n : Number} (h : arithmetic? v = some n) : isArith v = true := by
  cases v <;> first | rfl | (simp [arithmetic?] at h)

private theorem arithLoop_ok (f : Nat → F64 → F64 → F64) : ∀ (xs : List V) (i : Nat) (m : F64),
    (∀ x ∈ xs, ∃ n, arithmetic? x = some n) →
    ∃ r, arithLoop env f i m xs = .float r ∧
      ∀ P : List V → F64 → Prop, (∀ pre x m, P pre m → P (pre ++ [x]) (f (i + pre.length) m (cvf env x))) → P [] m → P xs r
  | [], i, m, _ => ⟨m, rfl, fun _ _ h => h⟩
  | x :: xs, i, m, h => by
    obtain ⟨n, hn⟩ := h x (by simp)
    obtain ⟨r, hr, hP⟩ := arithLoop_ok f xs (i + 1) (f i m (cvf env x)) fun y hy => h y (by simp [hy])
    refine ⟨r, ?_, ?_⟩
    · simp [arithLoop, isArith_of hn, hr]
    · intro P hs h0
      refine hP (fun pre => P (x :: pre)) ?_ (hs [] x m h0)
      intro pre y m h
      have := hs (x :: pre) y m h
      rwa [List.length_cons, show i + (pre.length + 1) = i + 1 + pre.length by omega] at this

private theorem cvf_nan {xs : List V} (hn : NoNaN xs) (hx : ∀ x ∈ xs, ∃ n, arithmetic? x = some n) : ∀ x ∈ xs, (cvf env x).isNaN = false := by
  intro x hm
  obtain ⟨n, h⟩ := hx x hm
  cases x with
  | float f => exact hn f hm
  | bool b => rw [bool_cvf]; exact F64.ofInt_not_nan _
  | gint n => exact F64.ofInt_not_nan _
  | int n => exact F64.ofInt_not_nan _
  | _ => simp [arithmetic?] at h

private theorem float_eq {f : F64} {x : V} (h : ∃ n, arithmetic? x = some n) (he : f.feq (cvf env x) = true) : Yields2 env .eq (.float f) x (.bool true) := by
  obtain ⟨n, h⟩ := h
  rw [yields2_ok rfl]
  congr 1
  have : eqVal env (.float f) x = eqNum env (.float f) x := by
    cases x <;> simp [arithmetic?] at h <;> simp [eqVal, eqMixed, typeOf]
  rw [this, eqNum_eq, if_pos (by simp [isFloat])]
  exact he.symm

private theorem float_rel {f : F64} {x : V} (h : ∃ n, arithmetic? x = some n) :
    (f.fle (cvf env x) = true → Yields2 env .le (.float f) x (.bool true)) ∧
    ((cvf env x).fle f = true → Yields2 env .ge (.float f) x (.bool true)) := by
  obtain ⟨n, h⟩ := h
  have key : ∀ i g s, relation env (.float f) x i g s = .bool (g f (cvf env x)) := by
    intro i g s
    cases x <;> simp [arithmetic?] at h <;> rfl
  constructor
  · intro hr; rw [yields2_ok rfl, key, hr]
  · intro hr; rw [yields2_ok rfl, key]; exact congrArg V.bool hr.symm

private theorem extreme_ok (f : Nat → F64 → F64 → F64) (le : F64 → F64 → Prop)
    (h0 : ∀ m x, f 0 m x = x) (hs : ∀ i m x, f (i + 1) m x = m ∨ f (i + 1) m x = x)
    (hle : ∀ i m x, m.isNaN = false → x.isNaN = false → le (f (i + 1) m x) m ∧ le (f (i + 1) m x) x)
    (hrefl : ∀ m, m.isNaN = false → le m m)
    (htrans : ∀ a b c : F64, le a b → le b c → le a c)
    (xs : List V) (hx : ∀ x ∈ xs, ∃ n, arithmetic? x = some n) (hne : xs ≠ []) (hn : NoNaN xs) :
    ∃ r : F64, arithLoop env f 0 .zero xs = .float r ∧ (∃ x ∈ xs, r = cvf env x) ∧ ∀ x ∈ xs, le r (cvf env x) := by
  obtain ⟨r, hr, hP⟩ := arithLoop_ok env f xs 0 .zero hx
  refine ⟨r, hr, ?_⟩
  have hnan := cvf_nan env hn hx
  have := hP (fun pre m => (∀ x ∈ pre, (cvf env x).isNaN = false) → pre ≠ [] → (∃ x ∈ pre, m = cvf env x) ∧ ∀ x ∈ pre, le m (cvf env x)) ?_ ?_ hnan hne
  · exact this
  · intro pre x m ih hall _
    have hxn : (cvf env x).isNaN = false := hall x (by simp)
    cases pre with
    | nil =>
      simp only [List.nil_append, List.length_nil, h0, List.mem_singleton, Nat.zero_add, forall_eq, exists_eq_left]
      exact ⟨trivial, hrefl _ hxn⟩
    | cons y pre =>
      obtain ⟨⟨z, hz, hmz⟩, hb⟩ := ih (fun w hw => hall w (List.mem_append_left _ hw)) (by simp)
      rw [show 0 + (y :: pre).length = pre.length + 1 by simp]
      have hmn : m.isNaN = false := by rw [hmz]; exact hall z (List.mem_append_left _ hz)
      obtain ⟨l1, l2⟩ := hle pre.length m (cvf env x) hmn hxn
      constructor
      · rcases hs pre.length m (cvf env x) with h | h
        · exact ⟨z, List.mem_append_left _ hz, by rw [h]; exact hmz⟩
        · exact ⟨x, by simp, h⟩
      · intro w hw
        rcases List.mem_append.1 hw with hw | hw
        · exact htrans _ _ _ l1 (hb w hw)
        · rw [List.mem_singleton.1 hw]; exact l2
  · intro _ h; exact absurd rfl h

private theorem minMax_num (xs : List V) (hx : Numbers xs) (hne : xs ≠ []) (f : Nat → F64 → F64 → F64) (g : Nat → Bytes → Bytes → Bytes) :
    minMaxArray env xs f g = arithLoop env f 0 .zero xs := by
  match xs, hne with
  | x :: r, _ =>
    obtain ⟨n, hn⟩ := hx.1 x (by simp)
    cases x <;> simp [arithmetic?] at hn <;> first | rfl | exact absurd rfl (hx.2 _ _)

private theorem fle_trans {x y z : F64} (h1 : x.fle y = true) (h2 : y.fle z = true) : x.fle z = true := by
  rw [F64.fle_iff] at *
  exact ⟨h1.1, h2.2.1, by omega⟩

private theorem fle_refl {x : F64} (h : x.isNaN = false) : x.fle x = true := by
  rw [F64.fle_iff]; exact ⟨h, h, Int.le_refl _⟩

private theorem flt_fle {x y : F64} (hx : x.isNaN = false) (hy : y.isNaN = false) :
    (x.flt y = true → x.fle y = true) ∧ (x.flt y = false → y.fle x = true) := by
  constructor
  · intro h
    rw [F64.flt_iff] at h
    rw [F64.fle_iff]; exact ⟨hx, hy, by omega⟩
  · intro h
    rw [F64.fle_iff]
    refine ⟨hy, hx, ?_⟩
    have : ¬ (x.flt y = true) := by simp [h]
    rw [F64.flt_iff] at this
    have : ¬ x.key < y.key := fun hk => this ⟨hx, hy, hk⟩
    omega

/-- The arguments of `min` and `max`: one array, or two or more values. -/
inductive ListArgs : List V → List V → Prop
  | array (xs : List V) : ListArgs [.arr xs] xs
  | several (x y : V) (xs : List V) : ListArgs (x :: y :: xs) (x :: y :: xs)

private theorem max_call {args xs : List V} {r : V} (ha : ListArgs args xs) (h : minMaxArray env xs maxArith maxString = r) :
    YieldsCall env (b! "max") args r := by
  refine call_known env (f := .max) (by decide) (by simp [Fn.arity]) fun ord => ?_
  cases ha <;> simp [Fn.apply, h]

private theorem min_call {args xs : List V} {r : V} (ha : ListArgs args xs) (h : minMaxArray env xs minArith minString = r) :
    YieldsCall env (b! "min") args r := by
  refine call_known env (f := .min) (by decide) (by simp [Fn.arity]) fun ord => ?_
  cases ha <;> simp [Fn.apply, h]

/-- `min` of numbers is an element and a lower bound. -/
theorem C26_min_numbers (args xs : List V) (ha : ListArgs args xs) (hx : Numbers xs) (hn : NoNaN xs) (hne : xs ≠ []) :
    ∃ r, YieldsCall env (b! "min") args r ∧ IsExtreme env .le xs r := by
  obtain ⟨r, hr, ⟨x, hxm, he⟩, hb⟩ := extreme_ok env minArith (fun a b => a.fle b = true) (fun _ _ => rfl)
    (fun i m x => by unfold minArith; split <;> simp)
    (fun i m x hm hx => by
      unfold minArith
      cases h : x.flt m
      · simp only [h, Bool.or_false]
        rw [if_neg (by simp)]
        exact ⟨fle_refl hm, (flt_fle hx hm).2 h⟩
      · simp only [h, Bool.or_true, if_true]
        exact ⟨(flt_fle hx hm).1 h, fle_refl hx⟩)
    (fun m => fle_refl) (fun a b c => fle_trans) xs hx.1 hne hn
  refine ⟨.float r, min_call env ha (by rw [minMax_num env xs hx hne, hr]), ⟨x, hxm, ?_⟩, ?_⟩
  · refine float_eq env (hx.1 x hxm) ?_
    rw [he]; exact F64.feq_self.2 (cvf_nan env hn hx.1 x hxm)
  · intro y hy
    exact (float_rel env (hx.1 y hy)).1 (hb y hy)

example := C26_min_numbers Ex.env [.int 3, .int (-2)] _ (.several _ _ _)
  ⟨fun x hx => by simp at hx; rcases hx with rfl | rfl <;> exact ⟨_, rfl⟩, by simp⟩ (fun f hf => by simp at hf) (by simp)

/-- `max` of numbers is an element and an upper bound. -/
theorem C26_max_numbers (args xs : List V) (ha : ListArgs args xs) (hx : Numbers xs) (hn : NoNaN xs) (hne : xs ≠ []) :
    ∃ r, YieldsCall env (b! "max") args r ∧ IsExtreme env .ge xs r := by
  obtain ⟨r, hr, ⟨x, hxm, he⟩, hb⟩ := extreme_ok env maxArith (fun a b => b.fle a = true) (fun _ _ => rfl)
    (fun i m x => by unfold maxArith; split <;> simp)
    (fun i m x hm hx => by
      unfold maxArith
      cases h : m.flt x
      · simp only [h, Bool.or_false]
        rw [if_neg (by simp)]
        exact ⟨fle_refl hm, (flt_fle hm hx).2 h⟩
      · simp only [h, Bool.or_true, if_true]
        exact ⟨(flt_fle hm hx).1 h, fle_refl hx⟩)
    (fun m => fle_refl) (fun a b c h1 h2 => fle_trans h2 h1) xs hx.1 hne hn
  refine ⟨.float r, max_call env ha (by rw [minMax_num env xs hx hne, hr]), ⟨x, hxm, ?_⟩, ?_⟩
  · refine float_eq env (hx.1 x hxm) ?_
    rw [he]; exact F64.feq_self.2 (cvf_nan env hn hx.1 x hxm)
  · intro y hy
    exact (float_rel env (hx.1 y hy)).2 (hb y hy)

example := C26_max_numbers Ex.env [.arr [.int 3, .int (-2)]] _ (.array _)
  ⟨fun x hx => by simp at hx; rcases hx with rfl | rfl <;> exact ⟨_, rfl⟩, by simp⟩ (fun f hf => by simp at hf) (by simp)

example : Numbers [.int 3, .float .one, .bool true] ∧ NoNaN [.int 3, .float .one, .bool true] := by
  refine ⟨⟨?_, by simp⟩, ?_⟩
  · intro x hx; simp at hx; rcases hx with rfl | rfl | rfl <;> exact ⟨_, rfl⟩
  · intro f hf; simp at hf; subst hf; decide

private theorem ofInt_rounds : F64.ofInt 9007199254740993 = F64.ofInt 9007199254740992 := by decide +kernel

/-- The result is a float even when the elements are integers, so a large integer can come back changed:
`max([9007199254740993])` is `9007199254740992.0`. -/
theorem C26_integers_lose_precision (n : Int64) (hn : n.toInt = 9007199254740993) :
    YieldsCall env (b! "max") [.arr [.int n]] (.float (.ofInt 9007199254740992)) := by
  have h : ∀ z w : Int, n.toInt = z → F64.ofInt z = F64.ofInt w →
      YieldsCall env (b! "max") [.arr [.int n]] (.float (.ofInt w)) := by
    rintro _ w rfl hw
    rw [← hw]
    exact max_call env (.array _) (by simp [minMaxArray, arithArrayOp, arithLoop, isArith, cvf, maxArith])
  exact h _ _ hn ofInt_rounds

example : (Int64.ofInt 9007199254740993).toInt = 9007199254740993 := by decide +kernel

private theorem stringLoop_min (f : Nat → Bytes → Bytes → Bytes)
    (hf : ∀ i m x, f i m x = if i == 0 || bytesLt x m then x else m) : ∀ (ss pre : List Bytes) (m : Bytes),
    pre ≠ [] → m ∈ pre → (∀ s ∈ pre, m ≤ s) →
    ∃ r ∈ pre ++ ss, stringLoop f pre.length m (ss.map V.str) = .str r ∧ ∀ s ∈ pre ++ ss, r ≤ s
  | [], pre, m, _, hm, hb => ⟨m, by simpa using hm, rfl, by simpa using hb⟩
  | s :: ss, pre, m, hp, hm, hb => by
    have hl : (pre.length == 0) = false := by cases pre <;> simp at hp ⊢
    simp only [List.map_cons, stringLoop, hf, hl, Bool.false_or]
    have key : ∀ m', m' ∈ pre ++ [s] → (∀ t ∈ pre ++ [s], m' ≤ t) →
        ∃ r ∈ pre ++ s :: ss, stringLoop f (pre.length + 1) m' (ss.map V.str) = .str r ∧ ∀ t ∈ pre ++ s :: ss, r ≤ t := by
      intro m' h1 h2
      have := stringLoop_min f hf ss (pre ++ [s]) m' (by simp) h1 h2
      simpa using this
    by_cases h : bytesLt s m = true
    · rw [if_pos h]
      refine key s (by simp) ?_
      intro t ht
      rcases List.mem_append.1 ht with ht | ht
      · exact fun hts => hb t ht (List.lt_trans hts ((bytesLt_iff s m).1 h))
      · rw [List.mem_singleton.1 ht]; exact List.le_refl _
    · rw [if_neg h]
      refine key m (by simp [hm]) ?_
      intro t ht
      rcases List.mem_append.1 ht with ht | ht
      · exact hb t ht
      · rw [List.mem_singleton.1 ht]
        rw [bytesLt_iff] at h
        exact h

private theorem min_string (f : Nat → F64 → F64 → F64) (g : Nat → Bytes → Bytes → Bytes)
    (hg : ∀ i m x, g i m x = if i == 0 || bytesLt x m then x else m) (ss : List Bytes) (hne : ss ≠ []) :
    ∃ r ∈ ss, minMaxArray env (ss.map V.str) f g = .str r ∧ ∀ s ∈ ss, r ≤ s := by
  match ss, hne with
  | s :: ss, _ =>
    have := stringLoop_min g hg ss [s] s (by simp) (by simp) (by simp)
    obtain ⟨r, hr, he, hb⟩ := this
    refine ⟨r, by simpa using hr, ?_, by simpa using hb⟩
    simp only [List.map_cons, minMaxArray, stringArrayOp, stringLoop, hg, beq_self_eq_true, Bool.true_or, if_true]
    exact he

/-- `min` of strings is the least, in the order of their bytes. -/
theorem C26_min_strings (args : List V) (ss : List Bytes) (ha : ListArgs args (ss.map V.str)) (hne : ss ≠ []) :
    ∃ r ∈ ss, YieldsCall env (b! "min") args (.str r) ∧ ∀ s ∈ ss, r ≤ s := by
  obtain ⟨r, hr, he, hb⟩ := min_string env minArith minString (fun _ _ _ => rfl) ss hne
  exact ⟨r, hr, min_call env ha he, hb⟩

example := C26_min_strings Ex.env [.str (b! "b"), .str (b! "a")] [b! "b", b! "a"] (.several _ _ _) (by simp)

/-- Full statement for `max`: the greatest string. -/
def MaxStringsRule : Prop :=
  ∀ (args : List V) (ss : List Bytes), ListArgs args (ss.map V.str) → ss ≠ [] →
    ∃ r ∈ ss, YieldsCall env (b! "max") args (.str r) ∧ ∀ s ∈ ss, s ≤ r

/-- What `max` yields is the least. -/
theorem C26_max_strings_is_min (args : List V) (ss : List Bytes) (ha : ListArgs args (ss.map V.str)) (hne : ss ≠ []) :
    ∃ r ∈ ss, YieldsCall env (b! "max") args (.str r) ∧ ∀ s ∈ ss, r ≤ s := by
  obtain ⟨r, hr, he, hb⟩ := min_string env maxArith maxString (fun _ _ _ => rfl) ss hne
  exact ⟨r, hr, max_call env ha he, hb⟩

example := C26_max_strings_is_min Ex.env [.str (b! "b"), .str (b! "a")] [b! "b", b! "a"] (.several _ _ _) (by simp)

private theorem yieldsCall_unique {f : Bytes} {args : List V} {r s : V} (hl : args.length < 2 ^ 63) (hn : ∀ v ∈ args, isNothing v = false)
    (h1 : YieldsCall env f args r) (h2 : YieldsCall env f args s) : r = s := by
  obtain ⟨es, hes⟩ := values_exist (env := env) args hl hn
  obtain ⟨t1, e1⟩ := h1 _ _ _ _ _ _ (hes Oracle.id .null 0)
  obtain ⟨t2, e2⟩ := h2 _ _ _ _ _ _ (hes Oracle.id .null 0)
  rw [e1] at e2
  injection e2 with e2
  injection e2

theorem C26_max_strings_fails : ¬ MaxStringsRule env := by
  intro h
  obtain ⟨r, hr, hy, hb⟩ := h [.str (b! "a"), .str (b! "b")] [b! "a", b! "b"] (.several _ _ _) (by simp)
  obtain ⟨r', hr', hy', hb'⟩ := C26_max_strings_is_min env [.str (b! "a"), .str (b! "b")] [b! "a", b! "b"] (.several _ _ _) (by simp)
  have := yieldsCall_unique env (by decide) (by decide) hy hy'
  injection this with this
  subst this
  have h1 := hb (b! "b") (by simp)
  have h2 := hb' (b! "a") (by simp)
  simp only [List.mem_cons, List.not_mem_nil, or_false] at hr
  rcases hr with rfl | rfl
  · revert h1; decide
  · revert h2; decide

/-- On a list of equal strings `max` is right. -/
theorem C26_max_strings_partial (args : List V) (s : Bytes) (n : Nat) (ha : ListArgs args ((List.replicate (n + 1) s).map V.str)) :
    YieldsCall env (b! "max") args (.str s) := by
  obtain ⟨r, hr, hy, -⟩ := C26_max_strings_is_min env args _ ha (by simp)
  rw [List.eq_of_mem_replicate hr] at hy
  exact hy

example := C26_max_strings_partial Ex.env [.str (b! "b"), .str (b! "b")] (b! "b") 1 (.several _ _ _)

/-- The empty list (and no argument at all) gives null. -/
theorem C26_empty : YieldsCall env (b! "min") [.arr []] .null ∧ YieldsCall env (b! "max") [.arr []] .null ∧
    YieldsCall env (b! "min") [] .null ∧ YieldsCall env (b! "max") [] .null :=
  ⟨min_call env (.array _) rfl, max_call env (.array _) rfl,
    call_known env (f := .min) (by decide) (by simp [Fn.arity]) fun _ => rfl,
    call_known env (f := .max) (by decide) (by simp [Fn.arity]) fun _ => rfl⟩

private theorem arithLoop_fail (f : Nat → F64 → F64 → F64) : ∀ (xs : List V) (i : Nat) (m : F64),
    (∃ x ∈ xs, arithmetic? x = none) → arithLoop env f i m xs = .err .type
  | [], _, _, h => by simp at h
  | x :: xs, i, m, h => by
    unfold arithLoop
    cases hx : isArith x with
    | false => rfl
    | true =>
      simp only [Bool.not_true, Bool.false_eq_true, if_false]
      refine arithLoop_fail f xs _ _ ?_
      obtain ⟨y, hy, he⟩ := h
      rcases List.mem_cons.1 hy with rfl | hy
      · cases y <;> simp [isArith, arithmetic?] at hx he
      · exact ⟨y, hy, he⟩

private theorem stringLoop_fail (f : Nat → Bytes → Bytes → Bytes) : ∀ (xs : List V) (i : Nat) (m : Bytes),
    (∃ x ∈ xs, ∀ s, x ≠ .str s) → stringLoop f i m xs = .err .type
  | [], _, _, h => by simp at h
  | x :: xs, i, m, h => by
    cases x with
    | str s =>
      unfold stringLoop
      refine stringLoop_fail f xs _ _ ?_
      obtain ⟨y, hy, he⟩ := h
      rcases List.mem_cons.1 hy with rfl | hy
      · exact absurd rfl (he s)
      · exact ⟨y, hy, he⟩
    | _ => rfl

/-- A list that is neither of numbers (booleans among them) nor of strings gives failure. -/
theorem C26_mixed (args xs : List V) (ha : ListArgs args xs) (hne : xs ≠ []) (h1 : ∃ x ∈ xs, arithmetic? x = none)
    (h2 : ∃ x ∈ xs, ∀ s, x ≠ .str s) : YieldsCall env (b! "min") args (.err .type) ∧ YieldsCall env (b! "max") args (.err .type) := by
  have key : ∀ f g, minMaxArray env xs f g = .err .type := by
    intro f g
    match xs, hne with
    | x :: r, _ =>
      cases x <;> first | rfl | exact arithLoop_fail env f _ 0 .zero h1 | exact stringLoop_fail g _ 0 [] h2
  exact ⟨min_call env ha (key _ _), max_call env ha (key _ _)⟩

example := C26_mixed Ex.env [.int 1, .str (b! "a")] _ (.several _ _ _) (by simp) ⟨.str (b! "a"), by simp, rfl⟩ ⟨.int 1, by simp, by simp⟩

/-- Full statement: booleans among the numbers give failure too. -/
def MixedRule : Prop :=
  ∀ (args xs : List V), ListArgs args xs → (∃ b, .bool b ∈ xs) → ∃ e, YieldsCall env (b! "min") args (.err e)

/-- It is false: a boolean counts as a number, unless it comes first. -/
theorem C26_mixed_booleans_fails : ¬ MixedRule env := by
  intro h
  obtain ⟨e, he⟩ := h [.int 1, .bool true] _ (.several _ _ _) ⟨true, by simp⟩
  have := yieldsCall_unique env (by decide) (by decide) he (min_call env (.several _ _ _) rfl)
  obtain ⟨r, hr, -⟩ := arithLoop_ok env minArith [.int 1, .bool true] 0 .zero (by
    intro x hx; simp at hx; rcases hx with rfl | rfl <;> exact ⟨_, rfl⟩)
  have h2 : minMaxArray env [.int 1, .bool true] minArith minString = arithLoop env minArith 0 .zero [.int 1, .bool true] := rfl
  rw [h2, hr] at this
  cases this

theorem C26_boolean_first (args xs : List V) (b : Bool) (ha : ListArgs args (.bool b :: xs)) :
    YieldsCall env (b! "min") args (.err .type) ∧ YieldsCall env (b! "max") args (.err .type) :=
  ⟨min_call env ha rfl, max_call env ha rfl⟩

example := C26_boolean_first Ex.env [.bool true, .int 1] [.int 1] true (.several _ _ _)

/-- A single argument that is not an array gives failure. -/
theorem C26_single (v : V) (h : ∀ xs, v ≠ .arr xs) :
    YieldsCall env (b! "min") [v] (.err .type) ∧ YieldsCall env (b! "max") [v] (.err .type) := by
  constructor
  · refine call_known env (f := .min) (by decide) (by simp [Fn.arity]) fun ord => ?_
    cases v <;> first | rfl | exact absurd rfl (h _)
  · refine call_known env (f := .max) (by decide) (by simp [Fn.arity]) fun ord => ?_
    cases v <;> first | rfl | exact absurd rfl (h _)

example := C26_single Ex.env (.int 1) (by simp)

/-! ### C27 sum, prod and avg -/

/-- The floats denoted by a list of numbers (and booleans). -/
def floats? : List V → Option (List F64)
  | [] => some []
  | v :: r => match arithmetic? v, floats? r with
    | some x, some xs => some (x.toF64 :: xs)
    | _, _ => none

private theorem floats_none : ∀ {xs : List V}, floats? xs = none → ∃ x ∈ xs, arithmetic? x = none
  | [], h => by simp [floats?] at h
  | v :: r, h => by
    cases hv : arithmetic? v with
    | none => exact ⟨v, by simp, hv⟩
    | some x =>
      cases hr : floats? r with
      | none =>
        obtain ⟨y, hy, he⟩ := floats_none hr
        exact ⟨y, by simp [hy], he⟩
      | some xs => simp [floats?, hv, hr] at h

private theorem cvf_of {v : V} {x : Number} (h : arithmetic? v = some x) : cvf env v = x.toF64 := by
  cases v <;> simp only [arithmetic?, reduceCtorEq, Option.some.injEq] at h <;> subst h <;> first | rfl | exact bool_cvf _

private theorem arithLoop_fold (f : F64 → F64 → F64) : ∀ {xs : List V} {fs : List F64} (i : Nat) (m : F64), floats? xs = some fs →
    arithLoop env (fun _ => f) i m xs = .float (fs.foldl f m)
  | [], fs, i, m, h => by simp [floats?] at h; subst h; rfl
  | v :: r, fs, i, m, h => by
    cases hv : arithmetic? v with
    | none => simp [floats?, hv] at h
    | some x =>
      cases hr : floats? r with
      | none => simp [floats?, hv, hr] at h
      | some xs =>
        simp [floats?, hv, hr] at h
        subst h
        simp only [arithLoop, isArith_of hv, Bool.not_true, Bool.false_eq_true, if_false, arithLoop_fold f _ _ hr, List.foldl_cons, cvf_of env hv]

private theorem arithLoop_prod : ∀ {xs : List V} {fs : List F64} (i : Nat) (m : F64), floats? xs = some fs →
    arithLoop env (fun i result el => if 0 < i then result.fmul el else el) (i + 1) m xs = .float (fs.foldl F64.fmul m)
  | [], fs, i, m, h => by simp [floats?] at h; subst h; rfl
  | v :: r, fs, i, m, h => by
    cases hv : arithmetic? v with
    | none => simp [floats?, hv] at h
    | some x =>
      cases hr : floats? r with
      | none => simp [floats?, hv, hr] at h
      | some xs =>
        simp [floats?, hv, hr] at h
        subst h
        simp only [arithLoop, isArith_of hv, Bool.not_true, Bool.false_eq_true, if_false, Nat.zero_lt_succ, if_true,
          arithLoop_prod _ _ hr, List.foldl_cons, cvf_of env hv]

/-- `sum` is the left-to-right sum, failing if an element is not a number. -/
theorem C27_sum (xs : List V) :
    YieldsCall env (b! "sum") [.arr xs] (match floats? xs with
      | some fs => .float (fs.foldl F64.fadd .zero)
      | none => .err .type) := by
  refine call_known env (f := .sum) (by decide) (by simp [Fn.arity]) fun ord => ?_
  simp only [Fn.apply]
  congr 1
  cases xs with
  | nil => rfl
  | cons v r =>
    simp only [List.isEmpty_cons, Bool.false_eq_true, if_false, arithArrayOp]
    cases h : floats? (v :: r) with
    | none => exact arithLoop_fail env _ _ _ _ (floats_none h)
    | some fs => exact arithLoop_fold env _ _ _ h

/-- `prod` is the left-to-right product, null for an empty list. -/
theorem C27_prod (xs : List V) :
    YieldsCall env (b! "prod") [.arr xs] (match floats? xs with
      | some [] => .null
      | some (f :: fs) => .float (fs.foldl F64.fmul f)
      | none => .err .type) := by
  refine call_known env (f := .prod) (by decide) (by simp [Fn.arity]) fun ord => ?_
  simp only [Fn.apply]
  congr 1
  cases xs with
  | nil => rfl
  | cons v r =>
    simp only [List.isEmpty_cons, Bool.false_eq_true, if_false, arithArrayOp]
    cases h : floats? (v :: r) with
    | none => exact arithLoop_fail env _ _ _ _ (floats_none h)
    | some fs =>
      cases hv : arithmetic? v with
      | none => simp [floats?, hv] at h
      | some x =>
        cases hr : floats? r with
        | none => simp [floats?, hv, hr] at h
        | some xs =>
          simp [floats?, hv, hr] at h
          subst h
          simp only [arithLoop, isArith_of hv, Bool.not_true, Bool.false_eq_true, if_false, Nat.lt_irrefl, cvf_of env hv]
          exact arithLoop_prod env 0 _ hr

private theorem avgLoop_eq (n : Nat) : ∀ (xs : List V) (m : F64), avgLoop env n m xs =
    match floats? xs with
    | some fs => .float ((fs.foldl F64.fadd m).fdiv (.ofInt n))
    | none => .err .type
  | [], m => rfl
  | v :: r, m => by
    cases hv : arithmetic? v with
    | none =>
      have : isArith v = false := by cases v <;> simp [arithmetic?] at hv <;> rfl
      simp [avgLoop, this, floats?, hv]
    | some x =>
      simp only [avgLoop, isArith_of hv, Bool.not_true, Bool.false_eq_true, if_false, avgLoop_eq n r, floats?, hv, cvf_of env hv]
      cases floats? r <;> rfl

/-- `avg` is the sum divided by the number of elements. -/
theorem C27_avg (xs : List V) :
    YieldsCall env (b! "avg") [.arr xs] (match floats? xs with
      | some fs => .float ((fs.foldl F64.fadd .zero).fdiv (.ofInt fs.length))
      | none => .err .type) := by
  refine call_known env (f := .avg) (by decide) (by simp [Fn.arity]) fun ord => ?_
  simp only [Fn.apply]
  congr 1
  rw [avgLoop_eq]
  have hl : ∀ {ys : List V} {fs : List F64}, floats? ys = some fs → fs.length = ys.length := by
    intro ys
    induction ys with
    | nil => intro fs h; simp [floats?] at h; subst h; rfl
    | cons v r ih =>
      intro fs h
      cases hv : arithmetic? v with
      | none => simp [floats?, hv] at h
      | some x =>
        cases hr : floats? r with
        | none => simp [floats?, hv, hr] at h
        | some xs => simp [floats?, hv, hr] at h; subst h; simp [ih hr]
  cases h : floats? xs with
  | none => rfl
  | some fs => simp [hl h]

/-- The average of nothing is NaN. -/
theorem C27_avg_empty : ∃ f : F64, f.isNaN = true ∧ YieldsCall env (b! "avg") [.arr []] (.float f) := by
  have := C27_avg env []
  exact ⟨_, by decide, this⟩

/-- Anything but an array gives failure. -/
theorem C27_not_array (v : V) (h : ∀ xs, v ≠ .arr xs) (f : Bytes) (hf : f ∈ [b! "sum", b! "prod", b! "avg"]) :
    YieldsCall env f [v] (.err .type) := by
  simp only [List.mem_cons, List.not_mem_nil, or_false] at hf
  rcases hf with rfl | rfl | rfl
  · refine call_known env (f := .sum) (by decide) (by simp [Fn.arity]) fun ord => ?_
    cases v <;> first | rfl | exact absurd rfl (h _)
  · refine call_known env (f := .prod) (by decide) (by simp [Fn.arity]) fun ord => ?_
    cases v <;> first | rfl | exact absurd rfl (h _)
  · refine call_known env (f := .avg) (by decide) (by simp [Fn.arity]) fun ord => ?_
    cases v <;> first | rfl | exact absurd rfl (h _)

example := C27_not_array Ex.env (.int 1) (by simp) (b! "sum") (by simp)

/-- Full statement: failure on any element that is not a number, booleans included. -/
def SumRule : Prop := ∀ xs : List V, (∃ b, .bool b ∈ xs) → ∃ e, YieldsCall env (b! "sum") [.arr xs] (.err e)

/-- It is false: `sum([true])` is 1. -/
theorem C27_booleans_fails : ¬ SumRule env := by
  intro h
  obtain ⟨e, he⟩ := h [.bool true] ⟨true, by simp⟩
  have := yieldsCall_unique env (by decide) (by decide) he (C27_sum env [.bool true])
  simp [floats?, arithmetic?] at this

example : floats? [.int 2, .bool true, .float .one] = some [.ofInt 2, .ofInt 1, .one] := rfl
example : floats? [.int 2, .null] = none := rfl

/-! ### C28 String and length functions -/

private theorem hasPrefix_iff : ∀ s p : Bytes, hasPrefix s p = true ↔ p <+: s
  | _, [] => by simp [hasPrefix]
  | [], _ :: _ => by simp [hasPrefix]
  | a :: as, b :: bs => by
    rw [hasPrefix, List.cons_prefix_cons, Bool.and_eq_true, hasPrefix_iff as bs, beq_iff_eq]
    exact and_congr_left fun _ => eq_comm

private theorem hasSuffix_iff (s p : Bytes) : hasSuffix s p = true ↔ p <:+ s := by
  rw [List.suffix_iff_eq_drop]
  unfold hasSuffix
  simp only [Bool.and_eq_true, decide_eq_true_eq, beq_iff_eq]
  constructor
  · intro h; exact h.2.symm
  · intro h
    refine ⟨?_, h.symm⟩
    have := congrArg List.length h
    rw [List.length_drop] at this
    omega

private theorem containsSub_iff : ∀ s p : Bytes, containsSub s p = true ↔ p <:+: s
  | s, [] => by cases s <;> simp [containsSub, hasPrefix]
  | [], _ :: _ => by simp [containsSub]
  | a :: as, b :: bs => by
    rw [containsSub, List.infix_cons_iff, Bool.or_eq_true, hasPrefix_iff, containsSub_iff as (b :: bs)]

/-- `contains` on strings decides whether the second is a substring of the first. -/
theorem C28_contains (s t : Bytes) : YieldsCall env (b! "contains") [.str s, .str t] (.bool (decide (t <:+: s))) :=
  call_known env (f := .contains) (by decide) (by simp [Fn.arity]) fun ord => by
    simp only [Fn.apply]
    congr 2
    rw [Bool.eq_iff_iff, decide_eq_true_eq, containsSub_iff]

/-- `starts_with` decides whether the second is a prefix of the first. -/
theorem C28_starts_with (s t : Bytes) : YieldsCall env (b! "starts_with") [.str s, .str t] (.bool (decide (t <+: s))) :=
  call_known env (f := .starts_with) (by decide) (by simp [Fn.arity]) fun ord => by
    simp only [Fn.apply, stringArgs]
    congr 2
    rw [Bool.eq_iff_iff, decide_eq_true_eq, hasPrefix_iff]

/-- `ends_with` decides whether the second is a suffix of the first. -/
theorem C28_ends_with (s t : Bytes) : YieldsCall env (b! "ends_with") [.str s, .str t] (.bool (decide (t <:+ s))) :=
  call_known env (f := .ends_with) (by decide) (by simp [Fn.arity]) fun ord => by
    simp only [Fn.apply, stringArgs]
    congr 2
    rw [Bool.eq_iff_iff, decide_eq_true_eq, hasSuffix_iff]

/-- These fail unless both arguments are strings. -/
theorem C28_not_strings (f : Bytes) (hf : f ∈ [b! "starts_with", b! "ends_with"]) (a b : V) (h : (∀ s, a ≠ .str s) ∨ ∀ s, b ≠ .str s) :
    YieldsCall env f [a, b] .nothing := by
  have : stringArgs [a, b] = none := by
    cases a <;> try rfl
    cases b <;> first | rfl | (simp at h)
  simp only [List.mem_cons, List.not_mem_nil, or_false] at hf
  rcases hf with rfl | rfl
  · exact call_known env (f := .starts_with) (by decide) (by simp [Fn.arity]) fun ord => by simp only [Fn.apply, this]
  · exact call_known env (f := .ends_with) (by decide) (by simp [Fn.arity]) fun ord => by simp only [Fn.apply, this]

example := C28_not_strings Ex.env (b! "ends_with") (by simp) (.str (b! "a")) (.int 1) (.inr (by simp))

private theorem containsElem_iff (x : V) (xs : List V) : containsElem env x xs = true ↔ ∃ el ∈ xs, eqVal env el x = true := by
  induction xs with
  | nil => simp [containsElem]
  | cons v r ih =>
    unfold containsElem
    cases h : eqVal env v x <;> simp [h, ih]

/-- `contains` on an array decides whether some element is `==` to the second argument. -/
theorem C28_contains_array (xs : List V) (x : V) : ∃ r, YieldsCall env (b! "contains") [.arr xs, x] (.bool r) ∧
    (r = true ↔ ∃ el ∈ xs, Yields2 env .eq el x (.bool true)) := by
  refine ⟨containsElem env x xs, call_known env (f := .contains) (by decide) (by simp [Fn.arity]) fun ord => rfl, ?_⟩
  rw [containsElem_iff]
  refine exists_congr fun el => and_congr_right fun _ => ?_
  rw [yields2_ok rfl]
  constructor
  · intro h; rw [h]
  · intro h; injection h with h; exact h.symm

/-- `contains` on anything else fails. -/
theorem C28_contains_other (a b : V) (h1 : ∀ s, a ≠ .str s) (h2 : ∀ xs, a ≠ .arr xs) : YieldsCall env (b! "contains") [a, b] (.err .type) :=
  call_known env (f := .contains) (by decide) (by simp [Fn.arity]) fun ord => by
    cases a <;> first | rfl | exact absurd rfl (h1 _) | exact absurd rfl (h2 _)

example := C28_contains_other Ex.env (.obj []) (.int 1) (by simp) (by simp)

/-- What `length` counts. -/
inductive Counts : V → Nat → Prop
  | string (s n) : Characters s n → Counts (.str s) n
  | array (xs) : Counts (.arr xs) xs.length
  | object (kvs) : Counts (.obj kvs) kvs.length

/-- Every string has exactly one number of characters. -/
theorem C28_count_string (s : Bytes) : ∃ n, ∀ m, Counts (.str s) m ↔ m = n :=
  ⟨runeCount s, fun m => ⟨fun h => by cases h with | string _ _ h => exact (characters_iff s m).1 h,
    fun h => .string _ _ ((characters_iff s m).2 h)⟩⟩

/-- It is the number of characters encoded, for valid UTF-8. -/
theorem C28_count_runes (rs : List Nat) (h : ∀ r ∈ rs, r.isValidChar) : Counts (.str (rs.flatMap utf8)) rs.length := by
  refine .string _ _ ?_
  induction rs with
  | nil => exact .nil
  | cons r rs ih => exact .char r _ _ (h r (by simp)) (ih fun r hr => h r (by simp [hr]))

example := C28_count_runes [0x61, 0xE9, 0x20AC, 0x1F600] (by decide)

/-- `length(v)` and `v.length` count characters, elements or members. -/
theorem C28_length (v : V) (n : Nat) (h : Counts v n) :
    YieldsCall env (b! "length") [v] (.int (Int64.ofNat n)) ∧ Yields2 env .dot v (.name (b! "length")) (.int (Int64.ofNat n)) := by
  constructor
  · refine call_known env (f := .length) (by decide) (by simp [Fn.arity]) fun ord => ?_
    cases h with
    | string s _ h => rw [(characters_iff s n).1 h]; rfl
    | array | object => rfl
  · rw [yields2_iff rfl]
    cases h with
    | string s _ h => rw [(characters_iff s n).1 h]; rfl
    | array | object => rfl

example := C28_length Ex.env (.obj [(b! "a", .null)]) 1 (.object _)

/-- Of other values the two differ: `length(v)` is null and `v.length` is a failure. -/
theorem C28_length_other (v : V) (h : ∀ n, ¬ Counts v n) :
    YieldsCall env (b! "length") [v] .null ∧ Yields2 env .dot v (.name (b! "length")) .nothing := by
  have hs : ∀ s, v ≠ .str s := fun s hv => by
    subst hv
    obtain ⟨n, hn⟩ := C28_count_string s
    exact h n ((hn n).2 rfl)
  have ha : ∀ xs, v ≠ .arr xs := fun xs hv => h xs.length (hv ▸ .array xs)
  have ho : ∀ kvs, v ≠ .obj kvs := fun kvs hv => h kvs.length (hv ▸ .object kvs)
  constructor
  · refine call_known env (f := .length) (by decide) (by simp [Fn.arity]) fun ord => ?_
    cases v <;> first | rfl | exact absurd rfl (hs _) | exact absurd rfl (ha _) | exact absurd rfl (ho _)
  · rw [yields2_iff rfl]
    cases v <;> first | rfl | exact absurd rfl (hs _) | exact absurd rfl (ha _) | exact absurd rfl (ho _)

example : (b! "bc") <:+: (b! "abcd") := by decide
example : Counts (.str (b! "aé€😀")) 4 := C28_count_runes [0x61, 0xE9, 0x20AC, 0x1F600] (by decide)
example : Counts (.str [0x61, 0xC3]) 2 := .string _ _ ((characters_iff _ _).2 rfl)
example : ∀ n, ¬ Counts (.bool true) n := fun _ h => nomatch h

/-! ### C44 Numeric functions -/

/-- `abs` of an integer is its magnitude, or a failure when that is not an `int64`. -/
theorem C44_abs_int (n : Int64) : ∃ r, YieldsCall env (b! "abs") [.int n] r ∧
    ((∃ m : Int64, r = .int m ∧ m.toInt = n.toInt.natAbs) ∨ (n.toInt = -2 ^ 63 ∧ r = .err .overflow)) := by
  refine ⟨if n < 0 then (if -n < 0 then .err .overflow else .int (-n)) else .int n,
    call_known env (f := .abs) (by decide) (by simp [Fn.arity]) fun ord => rfl, ?_⟩
  have hr := i64_range n
  by_cases h1 : n < 0
  · rw [if_pos h1]
    have h1' : n.toInt < 0 := Int64.lt_iff_toInt_lt.1 h1
    by_cases h2 : n.toInt = -2 ^ 63
    · right
      have hn : n = Int64.minValue := by rw [i64_eq, h2]; decide
      subst hn
      exact ⟨h2, if_pos (by decide +kernel)⟩
    · left
      have h3 : (-n).toInt = -n.toInt := i64_neg (by omega)
      have h4 : ¬ -n < 0 := by rw [Int64.lt_iff_toInt_lt, h3]; have : (0 : Int64).toInt = 0 := rfl; omega
      rw [if_neg h4]
      exact ⟨-n, rfl, by rw [h3]; omega⟩
  · left
    rw [if_neg h1]
    have h1' : ¬ n.toInt < 0 := fun h => h1 (Int64.lt_iff_toInt_lt.2 h)
    exact ⟨n, rfl, by omega⟩

/-- `abs` of a float clears its sign (negative zero and NaN excepted, which are returned as they are). -/
theorem C44_abs_float (f : F64) (hn : f.isNaN = false) : ∃ g : F64, YieldsCall env (b! "abs") [.float f] (.float g) ∧ g.key = f.key.natAbs := by
  refine ⟨_, call_known env (f := .abs) (by decide) (by simp [Fn.arity]) fun ord => rfl, ?_⟩
  have hz : f.flt .zero = true ↔ f.key < 0 := by rw [F64.flt_iff]; simp [hn, F64.nan_zero, F64.key_zero]
  by_cases h : f.flt .zero = true
  · rw [if_pos h, F64.key_fneg]; have := hz.1 h; omega
  · rw [if_neg h]; have := mt hz.2 h; omega

example := C44_abs_float Ex.env (.ofInt (-3)) (F64.ofInt_not_nan _)

/-- A Go `int`, which only a document built by hand can contain, is not checked for overflow: the least one
has a negative `abs`. -/
theorem C44_abs_goint_overflows : YieldsCall env (b! "abs") [.gint (Int64.ofInt (-2 ^ 63))] (.int (Int64.ofInt (-2 ^ 63))) :=
  call_known env (f := .abs) (by decide) (by simp [Fn.arity]) fun ord => by
    have : (if Int64.ofInt (-2 ^ 63) < 0 then -Int64.ofInt (-2 ^ 63) else Int64.ofInt (-2 ^ 63)) = Int64.ofInt (-2 ^ 63) := by decide +kernel
    simp only [Fn.apply, this]

/-- `ceil` and `floor` of an integer are the integer. -/
theorem C44_ceil_floor_int (n : Int64) : YieldsCall env (b! "ceil") [.int n] (.int n) ∧ YieldsCall env (b! "floor") [.int n] (.int n) :=
  ⟨call_known env (f := .ceil) (by decide) (by simp [Fn.arity]) fun _ => rfl,
    call_known env (f := .floor) (by decide) (by simp [Fn.arity]) fun _ => rfl⟩

/-- `to_number` of a number is the number. -/
theorem C44_to_number (v : V) (x : Number) (h : arithmetic? v = some x) (hb : ∀ b, v ≠ .bool b) : YieldsCall env (b! "to_number") [v] v :=
  call_known env (f := .to_number) (by decide) (by simp [Fn.arity]) fun ord => by
    cases v <;> first | rfl | exact absurd rfl (hb _) | simp [arithmetic?] at h

example := C44_to_number Ex.env (.int 3) (.int 3) rfl (by simp)

/-- `to_number` of a string is the number it denotes, or a failure. -/
theorem C44_to_number_string (s : Bytes) : YieldsCall env (b! "to_number") [.str s] (match env.parseFloat s with
    | some f => .float f
    | none => .err (.parseNum s)) :=
  call_known env (f := .to_number) (by decide) (by simp [Fn.arity]) fun _ => rfl

/-- Other types give failure: not an error, not a panic. -/
theorem C44_other (f : Bytes) (hf : f ∈ [b! "abs", b! "ceil", b! "floor", b! "to_number"]) (v : V) (h : arithmetic? v = none ∨ ∃ b, v = .bool b)
    (hs : f = b! "to_number" → ∀ s, v ≠ .str s) : YieldsCall env f [v] (.err .type) := by
  simp only [List.mem_cons, List.not_mem_nil, or_false] at hf
  rcases hf with rfl | rfl | rfl | rfl
  · refine call_known env (f := .abs) (by decide) (by simp [Fn.arity]) fun ord => ?_
    cases v <;> first | rfl | simp [arithmetic?] at h
  · refine call_known env (f := .ceil) (by decide) (by simp [Fn.arity]) fun ord => ?_
    cases v <;> first | rfl | simp [arithmetic?] at h
  · refine call_known env (f := .floor) (by decide) (by simp [Fn.arity]) fun ord => ?_
    cases v <;> first | rfl | simp [arithmetic?] at h
  · refine call_known env (f := .to_number) (by decide) (by simp [Fn.arity]) fun ord => ?_
    cases v <;> first | rfl | exact absurd rfl (hs rfl _) | simp [arithmetic?] at h

example := C44_other Ex.env (b! "to_number") (by simp) (.arr []) (.inl rfl) (by simp)

end JP
