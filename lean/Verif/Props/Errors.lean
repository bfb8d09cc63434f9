import Verif.Proof.Errors
import Verif.Props.Core
import Verif.Props.Steps
import Verif.Props.Values
/-!
When `Eval` returns an error: C29, C43.
-/
namespace JP
open Spec

variable (env : Env)

/-! ### C29 Errors are reported exactly when documented -/

/-- Every error of `Eval` has one of the documented causes: some expression of the path has a part that is the
operation at fault, with operands at fault. -/
theorem C29_only (oracle : Oracle) (p : JSONPath) (q : Path) (h : IsCompiled env p q) (root : V) (x : RErr)
    (he : Eval env oracle p root = some (.err x)) :
    ∃ s ∈ q, ∃ e, .expr e ∈ s.args ∧ ∃ e', Part e e' ∧ Cause env oracle root e' x := by
  obtain ⟨⟨t, h1, h2⟩, hs⟩ := h
  obtain ⟨path, hp, hw, heq⟩ := Eval_eq oracle h1 hs root
  rw [h2] at hp; cases hp
  rw [heq] at he
  injection he with he
  exact evalPath_err hw he

example := C29_only Ex.env Oracle.id _ _ ⟨⟨b! "$[?(@ in 2)]", rfl, rfl⟩, by decide⟩ (.arr [.int 1]) _ (run_of_runFuel 20 _ rfl)

/-- A path without `=~`, `in`, `nin` and calls never gives an error. -/
theorem C29_none (oracle : Oracle) (p : JSONPath) (q : Path) (h : IsCompiled env p q) (root : V)
    (hq : ∀ s ∈ q, ∀ e, .expr e ∈ s.args → ∀ op kids, Part e (.inner op kids) → op ∉ [Op.match_, .in_, .nin, .call]) (x : RErr) :
    Eval env oracle p root ≠ some (.err x) := by
  intro he
  obtain ⟨s, hs, e, hm, e', hp, hc⟩ := C29_only env oracle p q h root x he
  have := hq s hs e hm
  cases hc with
  | badRegexp | matchRight | matchLeft | unknownFunction | wrongArgs => exact this _ _ hp (by decide)
  | inRight op _ _ _ hop => rcases hop with rfl | rfl <;> exact this _ _ hp (by decide)

example := C29_none Ex.env Oracle.id _ [⟨.filter, [.expr .current]⟩] ⟨⟨b! "$[?(@)]", rfl, rfl⟩, by decide⟩ (.arr [.int 1])
  (by intro s hs e he op kids hp; simp at hs; subst hs; simp at he; subst he; cases hp)

private theorem notFailed {v : V} (h : ¬ Failed v) : isNothing v = false := by
  cases v <;> simp [Failed, isNothing] at h ⊢

/-- `=~` with a string that is not a regular expression on the right. -/
theorem C29_bad_regexp (a : V) (ha : ¬ Failed a) (s : Bytes) (h : env.reValid s = false) : Raises2 env .match_ a (.str s) (.badRegexp s) := by
  rw [raises2_iff rfl]
  simp [opMatch, notFailed ha, show isNothing (.str s) = false from rfl, h]

example := C29_bad_regexp { Ex.env with reValid := fun _ => false } (.str (b! "x")) (by simp [Failed]) (b! "(") rfl

/-- `=~` with something that is neither a string nor a regular expression on the right. -/
theorem C29_match_right (a b : V) (ha : ¬ Failed a) (hb : ¬ Failed b) (h1 : ∀ s, b ≠ .str s) (h2 : ∀ p, b ≠ .re p) :
    Raises2 env .match_ a b (.matchRight b) := by
  rw [raises2_iff rfl]
  unfold opMatch
  simp only [notFailed ha, notFailed hb, Bool.or_self, Bool.false_eq_true, if_false]

example := C29_match_right Ex.env (.str (b! "x")) (.int 1) (by simp [Failed]) (by simp [Failed]) (by simp) (by simp)

/-- `=~` with something that is not a string on the left. -/
theorem C29_match_left (a b : V) (ha : ¬ Failed a) (h : (∃ p, b = .re p) ∨ ∃ s, b = .str s ∧ env.reValid s = true) (h1 : ∀ s, a ≠ .str s) :
    Raises2 env .match_ a b (.matchLeft a) := by
  rw [raises2_iff rfl]
  unfold opMatch
  rcases h with ⟨p, rfl⟩ | ⟨s, rfl, h⟩
  · simp only [notFailed ha, show isNothing (.re p) = false from rfl, Bool.or_self, Bool.false_eq_true, if_false]
  · simp only [notFailed ha, show isNothing (.str s) = false from rfl, Bool.or_self, Bool.false_eq_true, if_false, h, if_true]

example := C29_match_left Ex.env (.int 1) (.re (b! "x")) (by simp [Failed]) (.inl ⟨_, rfl⟩) (by simp)

/-- Otherwise `=~` yields whether the string matches. -/
theorem C29_match (s p : Bytes) : Yields2 env .match_ (.str s) (.re p) (.bool (env.reMatch p s)) ∧
    (env.reValid p = true → Yields2 env .match_ (.str s) (.str p) (.bool (env.reMatch p s))) := by
  constructor
  · rw [yields2_iff rfl]; rfl
  · intro h
    rw [yields2_iff rfl]
    simp [opMatch, isNothing, h]

/-- `in` and `nin` with something that is not an array on the right. -/
theorem C29_in_right (op : Op) (hop : op = .in_ ∨ op = .nin) (a b : V) (ha : ¬ Failed a) (hb : ¬ Failed b) (h : ∀ xs, b ≠ .arr xs) :
    Raises2 env op a b (.inRight op b) := by
  have key : opIn env op a b = .err (.inRight op b) := by
    unfold opIn
    simp only [notFailed ha, notFailed hb, Bool.or_self, Bool.false_eq_true, if_false]
  rcases hop with rfl | rfl <;> rw [raises2_iff rfl, key]

example := C29_in_right Ex.env .nin (.inr rfl) (.int 1) (.obj []) (by simp [Failed]) (by simp [Failed]) (by simp)

/-- A call of a function that is not predefined. -/
theorem C29_unknown_function (f : Bytes) (hf : ∀ n, (f, n) ∉ functions) (args : List V) : RaisesCall env f args (.unknownFunction f) := by
  refine raisesCall_of fun ord => ?_
  unfold call
  cases h : Fn.ofName f with
  | none => rfl
  | some g => exact absurd (ofName_functions.2 g h) (hf _)

example := C29_unknown_function Ex.env (b! "size") (by simp [functions]) [.int 1]

/-- A call with the wrong number of arguments. -/
theorem C29_wrong_args (f : Bytes) (n : Nat) (hf : (f, some n) ∈ functions) (args : List V) (hl : args.length ≠ n) :
    RaisesCall env f args (.wrongArgs f n args.length) := by
  refine raisesCall_of fun ord => ?_
  unfold call
  cases h : Fn.ofName f with
  | none => exact absurd hf (ofName_functions.1 h _)
  | some g =>
    have := functions_unique (ofName_functions.2 g h) hf
    simp only [this, if_pos hl]

example := C29_wrong_args Ex.env (b! "length") 1 (by decide) [.int 1, .int 2] (by simp)

/-- A call with the right number of arguments is never an error (and never a panic): it yields a value. -/
theorem C29_right_args (f : Bytes) (na : Option Nat) (hf : (f, na) ∈ functions) (args : List V) (hl : ∀ n, na = some n → args.length = n)
    (oracle : Oracle) (root dot : V) (es : List Expr) (t t1 : Nat) (hv : Values env oracle root dot es args t t1) :
    ∃ r t2, evalExpr env oracle root dot (.inner .call (.name f :: es)) t = .ok (r, t2) := by
  rw [evalCall hv]
  have hs := call_safe (S := True) env (oracle t1) f args
  cases hc : call env (oracle t1) f args with
  | ok r => exact ⟨r, t1 + 1, rfl⟩
  | err x =>
    rcases call_err hc with ⟨-, hn⟩ | ⟨n, -, hm, hne⟩
    · exact absurd hf (hn _)
    · exact absurd (hl n (functions_unique hf hm)) hne
  | panic m => rw [hc] at hs; exact absurd trivial hs
  | stuck => rw [hc] at hs; exact hs.elim

example := C29_right_args Ex.env (b! "length") (some 1) (by decide) [.int 1] (by simp) Oracle.id Ex.doc .null [.int 1] 0 0
  (.cons rfl (.nil _))

/-- When some part of the expression of a filter is an error for some candidate, `Eval` returns an error, and
nothing else. -/
theorem C29_reached (oracle : Oracle) (hv : oracle.Valid) (p1 p2 : JSONPath) (q : Path) (e : Expr) (h1 : IsCompiled env p1 q)
    (h2 : IsCompiled env p2 (q ++ [⟨.filter, [.expr e]⟩])) (root : V) (hr : root.WF) (hst : StridesFit root (q ++ [⟨.filter, [.expr e]⟩]))
    (vs : List V) (he : Eval env oracle p1 root = some (.ok (some vs)))
    (v c : V) (hvm : v ∈ vs) (hc : ∀ cs, Children v cs → c ∈ cs) (e' : Expr) (hpart : Part e e')
    (hx : ∀ t, ∃ x, evalExpr env oracle root c e' t = .err x) : ∃ x, Eval env oracle p2 root = some (.err x) := by
  have hev := h2.eval oracle root
  obtain ⟨⟨text, ht, hpp⟩, hsz⟩ := h2
  have hnp := C03_eval_never_panics_partial env oracle text p2 ht hsz root hr _ hpp hst
  cases hres : evalPath env oracle root (q ++ [⟨.filter, [.expr e]⟩]) with
  | err x => exact ⟨x, by rw [hev, hres]⟩
  | panic m => exact absurd (by rw [hev, hres]) (hnp m)
  | stuck =>
    obtain ⟨path', hp', hw, -⟩ := Eval_eq oracle ht hsz root
    rw [hpp] at hp'
    cases hp'
    have := evalPath_safe (S := True) (N := True) (env := env) (oracle := oracle) hr.noSlice hr.lens _ hw (fun _ _ _ => trivial)
      (fun s hs v hv _ => hst.slices hr s hs v hv)
    rw [hres] at this
    exact this.elim
  | ok out =>
    rw [hres] at hev
    obtain ⟨res, rfl⟩ := C06_result_not_nil env oracle p2 root out hev
    obtain ⟨parts, hp, hk, -⟩ := C14_filter_partial (hv := hv) (e := e) (h1 := h1) (h2 := ⟨⟨text, ht, hpp⟩, hsz⟩) (root := root) (vs := vs) (res := res) (he := he) (he2 := hev)
    have hcm : c ∈ parts.flatten := by
      have : ∀ {vs : List V} {parts : List (List V)}, All2 Children vs parts → v ∈ vs → c ∈ parts.flatten := by
        intro vs parts h
        induction h with
        | nil => intro h; cases h
        | cons h _ ih =>
          intro hm
          rw [List.flatten_cons, List.mem_append]
          rcases List.mem_cons.1 hm with rfl | hm
          · exact .inl (hc _ h)
          · exact .inr (ih hm)
      exact this hp hvm
    have hk := hk (.inr (by intro h; rw [h] at hcm; cases hcm))
    have hval : ∀ {l kept : List V}, Keeps (Answer env oracle root e) l kept → c ∈ l → ∃ w, HasValue env oracle root c e w := by
      intro l kept h
      induction h with
      | nil => intro h; cases h
      | keep h _ ih =>
        intro hm
        rcases List.mem_cons.1 hm with rfl | hm
        · obtain ⟨w, hw, -⟩ := h; exact ⟨w, hw⟩
        · exact ih hm
      | drop h _ ih =>
        intro hm
        rcases List.mem_cons.1 hm with rfl | hm
        · obtain ⟨w, hw, -⟩ := h; exact ⟨w, hw⟩
        · exact ih hm
    obtain ⟨w, t, t', hw⟩ := hval hk hcm
    obtain ⟨t', r', hw⟩ := part_ok hpart hw
    obtain ⟨x, hx⟩ := hx t'
    rw [hw] at hx
    cases hx

example := C29_reached Ex.env Oracle.id Ex.valid _ _ [] (.inner .in_ [.current, .int 2]) ⟨⟨b! "$", rfl, rfl⟩, by decide⟩
  ⟨⟨b! "$[?(@ in 2)]", rfl, rfl⟩, by decide⟩ (.arr [.int 1]) (by simp [V.WF, WFs])
  (by rintro n ⟨s, hs, start, stop, hv⟩; simp at hs; subst hs; simp at hv) [.arr [.int 1]] (run_of_runFuel 10 _ rfl) (.arr [.int 1]) (.int 1)
  (by simp) (fun cs h => by rcases h with _ | _ | ⟨_, h⟩ <;> simp_all [isStructure]) _ (.self _) (fun t => ⟨_, rfl⟩)

/-- The same for the expressions of the other steps, which are evaluated with null for `@`. -/
theorem C29_reached_step (oracle : Oracle) (p1 p2 : JSONPath) (q : Path) (s : Step) (hs : s.op ∈ [Op.member, .select, .union])
    (h1 : IsCompiled env p1 q) (h2 : IsCompiled env p2 (q ++ [s])) (root : V) (hr : root.WF) (hst : StridesFit root (q ++ [s]))
    (vs : List V) (he : Eval env oracle p1 root = some (.ok (some vs))) (e e' : Expr) (hm : .expr e ∈ s.args) (hpart : Part e e')
    (hx : ∀ t, ∃ x, evalExpr env oracle root .null e' t = .err x) : ∃ x, Eval env oracle p2 root = some (.err x) := by
  have hev := h2.eval oracle root
  obtain ⟨o, t, -, hsn⟩ := eval_snoc h1 h2 he
  obtain ⟨⟨text, ht, hpp⟩, hsz⟩ := h2
  have hnp := C03_eval_never_panics_partial env oracle text p2 ht hsz root hr _ hpp hst
  cases hres : evalPath env oracle root (q ++ [s]) with
  | err x => exact ⟨x, by rw [hev, hres]⟩
  | panic m => exact absurd (by rw [hev, hres]) (hnp m)
  | stuck =>
    obtain ⟨path', hp', hw, -⟩ := Eval_eq oracle ht hsz root
    rw [hpp] at hp'
    cases hp'
    have := evalPath_safe (S := True) (N := True) (env := env) (oracle := oracle) hr.noSlice hr.lens _ hw (fun _ _ _ => trivial)
      (fun s hs v hv _ => hst.slices hr s hs v hv)
    rw [hres] at this
    exact this.elim
  | ok res =>
    rw [hev, hres] at hsn
    injection hsn with hsn
    unfold stepResult at hsn
    obtain ⟨⟨o2, t2⟩, hsn, -⟩ := bind_eq_ok hsn.symm
    have : ∃ r, evalVals env oracle root .null s.args t = .ok r := by
      unfold evalStep at hsn
      simp only [List.mem_cons, List.not_mem_nil, or_false] at hs
      rcases hs with h | h | h <;> rw [h] at hsn <;> obtain ⟨r, hr, -⟩ := bind_eq_ok hsn <;> exact ⟨r, hr⟩
    obtain ⟨r, hr⟩ := this
    obtain ⟨_, _, hw⟩ := evalVals_part hm hr
    obtain ⟨t', r', hw⟩ := part_ok hpart hw
    obtain ⟨x, hx⟩ := hx t'
    rw [hw] at hx
    cases hx

example := C29_reached_step Ex.env Oracle.id _ _ [] ⟨.select, [.expr (.inner .in_ [.int 1, .int 2])]⟩ (by simp) ⟨⟨b! "$", rfl, rfl⟩, by decide⟩
  ⟨⟨b! "$[(1 in 2)]", rfl, rfl⟩, by decide⟩ Ex.doc Ex.doc_wf
  (by rintro n ⟨s, hs, start, stop, hv⟩; simp at hs; subst hs; simp at hv) [Ex.doc] (run_of_runFuel 10 _ rfl) (.inner .in_ [.int 1, .int 2]) _ (by simp) (.self _)
  (fun t => ⟨_, rfl⟩)

/-- An error is final: it is also the outcome of every longer path. -/
theorem C29_final (oracle : Oracle) (p1 p2 : JSONPath) (q r : Path) (h1 : IsCompiled env p1 q) (h2 : IsCompiled env p2 (q ++ r))
    (root : V) (x : RErr) (he : Eval env oracle p1 root = some (.err x)) : Eval env oracle p2 root = some (.err x) := by
  rw [h1.eval oracle root] at he
  injection he with he
  rw [h2.eval oracle root]
  unfold evalPath at he ⊢
  rw [evalSteps_append]
  cases h : evalSteps env oracle root q (some [root]) 0 with
  | err y => rw [h] at he; cases he; rfl
  | ok y => rw [h] at he; cases he
  | panic m => rw [h] at he; cases he
  | stuck => rw [h] at he; cases he

example : ∃ p, IsCompiled Ex.env p ([] ++ [⟨.filter, [.expr (.inner .in_ [.current, .int 2])]⟩]) ∧
    Eval Ex.env Oracle.id p (.arr [.int 1]) = some (.err (.inRight .in_ (.int 2))) :=
  ⟨_, ⟨⟨b! "$[?(@ in 2)]", rfl, rfl⟩, by decide⟩, run_of_runFuel 20 _ rfl⟩
example : (b! "max", none) ∈ functions ∧ ∀ n, (b! "size", n) ∉ functions := ⟨by decide, by simp [functions]⟩

/-! ### C43 && and || as in JavaScript -/

/-- Full statement: when the left operand decides, the right operand does not matter. -/
def ShortCircuitRule : Prop :=
  ∀ (oracle : Oracle) (root dot : V) (l r : Expr) (t t1 : Nat) (a : V), evalExpr env oracle root dot l t = .ok (a, t1) →
    (¬ IsJsonNumber a → ¬ Falsy a → ∃ t2, evalExpr env oracle root dot (.inner .or [l, r]) t = .ok (a, t2)) ∧
    (Falsy a → ∃ t2, evalExpr env oracle root dot (.inner .and [l, r]) t = .ok (a, t2))

/-- It is false: `true || 1 in 2` is an error, which shows in the result of `Eval`. -/
theorem C43_short_circuit_fails : ¬ ShortCircuitRule env ∧
    ∃ p, Compile env (b! "$[?(true || 1 in 2)]") = .ok p ∧ Eval env Oracle.id p (.arr [.null]) = some (.err (.inRight .in_ (.int 2))) := by
  constructor
  · intro h
    obtain ⟨t2, h2⟩ := (h Oracle.id .null .null (.bool true) (.inner .in_ [.int 1, .int 2]) 0 0 (.bool true) rfl).1
      (by rintro ⟨_, h⟩; cases h) (by intro h; cases h)
    cases h2
  · exact ⟨_, rfl, run_of_runFuel 20 _ rfl⟩

/-- What holds: when the left operand decides, the value of the right operand, if it has one, does not
matter. -/
theorem C43_value_decided_partial (oracle : Oracle) (root dot : V) (l r : Expr) (t t1 t2 : Nat) (a b : V)
    (h1 : evalExpr env oracle root dot l t = .ok (a, t1)) (h2 : evalExpr env oracle root dot r t1 = .ok (b, t2)) :
    (¬ IsJsonNumber a → ¬ Falsy a → evalExpr env oracle root dot (.inner .or [l, r]) t = .ok (a, t2)) ∧
    (Falsy a → evalExpr env oracle root dot (.inner .and [l, r]) t = .ok (a, t2)) :=
  ⟨fun hj hf => C22_or_left env a b hj hf _ _ _ _ _ _ _ _ h1 h2, fun hf => C22_and_left env a b hf _ _ _ _ _ _ _ _ h1 h2⟩

example := C43_value_decided_partial Ex.env Oracle.id Ex.doc .null (.int 1) .null 0 0 0 (.int 1) .null rfl rfl

/-- And: the only way the right operand can matter is by being an error. -/
theorem C43_only_by_error_partial (oracle : Oracle) (root dot : V) (hr : root.WF) (hd : dot.WF) (l r : Expr) (hw : r.WF) (t t1 : Nat) (a : V)
    (h1 : evalExpr env oracle root dot l t = .ok (a, t1)) (hne : ∀ x, evalExpr env oracle root dot r t1 ≠ .err x) :
    (¬ IsJsonNumber a → ¬ Falsy a → ∃ t2, evalExpr env oracle root dot (.inner .or [l, r]) t = .ok (a, t2)) ∧
    (Falsy a → ∃ t2, evalExpr env oracle root dot (.inner .and [l, r]) t = .ok (a, t2)) := by
  have hs := evalExpr_safe (S := True) env oracle root dot hr.noSlice hd.noSlice r hw t1
  cases h2 : evalExpr env oracle root dot r t1 with
  | ok b =>
    obtain ⟨b, t2⟩ := b
    have := C43_value_decided_partial env oracle root dot l r t t1 t2 a b h1 h2
    exact ⟨fun hj hf => ⟨t2, this.1 hj hf⟩, fun hf => ⟨t2, this.2 hf⟩⟩
  | err x => exact absurd h2 (hne x)
  | panic m => rw [h2] at hs; exact absurd trivial hs
  | stuck => rw [h2] at hs; exact hs.elim

example : evalExpr Ex.env Oracle.id Ex.doc .null (.inner .or [.int 1, .null]) 0 = .ok (.int 1, 0) := rfl

end JP
