import Verif.Proof.RunExact
import Verif.Proof.WalkExact
import Verif.Props.Core
import Verif.Props.Program
/-!
How deep the calls of an evaluation are nested.
-/
namespace JP
open Spec

variable (env : Env) (oracle : Oracle) (pick : MState → Ord)

/-- With whatever stack, the result is that of `Eval` or the stack overflows. -/
theorem C103_same (hv : ∀ s, (pick s).Valid) (d : Nat) (p : JSONPath) (root : V) (r : Res RErr GoSlice) (h : Eval env oracle p root = some r) :
    dEval d env oracle pick p root = some r ∨ dEval d env oracle pick p root = some (.panic "stack overflow") := by
  obtain ⟨f, hf⟩ := run_eq_some.1 h
  exact dRun_same hv d p.prog root f _ hf

example (p : JSONPath) (h : Compile Ex.env (b! "$..a[?(@>1)]") = .ok p) : ∃ r, Eval Ex.env Oracle.id p Ex.doc = some r ∧
    (dEval 2 Ex.env Oracle.id (fun _ _ n => List.range n) p Ex.doc = some r ∨
      dEval 2 Ex.env Oracle.id (fun _ _ n => List.range n) p Ex.doc = some (.panic "stack overflow")) := by
  obtain ⟨r, he, _⟩ := C02_eval_terminates_text_partial Ex.env Oracle.id (b! "$..a[?(@>1)]") (by decide) p h Ex.doc Ex.doc_wf
  exact ⟨r, he, C103_same Ex.env Oracle.id _ (fun _ _ _ => .refl _) 2 p Ex.doc r he⟩

/-- Why that is: what is selected is never higher than the document, and a value on the stack by no more than the orders that may make arrays. -/
theorem C103_holds_partial (text : Bytes) (p : JSONPath) (h : Compile env text = .ok p) (hsz : p.prog.orders.length < 2 ^ 22) (root : V) (s : MState)
    (hd : During env oracle p root s) : (∀ v ∈ s.out.elems, height v ≤ height root) ∧ height s.dot ≤ height root ∧
      (∀ l ∈ s.values, ∀ v ∈ l, height v ≤ height root) ∧ ∀ v ∈ s.stack, height v ≤ height root + p.prog.orders.countP builds :=
  have h := Compile_low h hsz hd
  ⟨h.out, h.dot, h.values, h.stack⟩

example := C103_holds_partial Ex.env Oracle.id (b! "$..a[?(@.b==[1])]") _ rfl (by decide) Ex.doc _ .start

/-- A call for every level of the document, and one for every order that may make an array, are enough. -/
theorem C103_enough_partial (hv : ∀ s, (pick s).Valid) (d : Nat) (text : Bytes) (p : JSONPath) (h : Compile env text = .ok p)
    (hsz : p.prog.orders.length < 2 ^ 22) (root : V) (hr : root.WF) (hd : height root + p.prog.orders.countP builds < d) :
    dEval d env oracle pick p root = Eval env oracle p root := by
  obtain ⟨r, he, _⟩ := C02_eval_terminates_partial env oracle text p h hsz root hr
  obtain ⟨f, hf⟩ := run_eq_some.1 he
  rw [he]
  refine dRun_enough hv (fun s hs => ?_) (by omega) f _ .start hf
  have := Compile_low h hsz hs
  exact ⟨fun v hv => (this.out v hv).mono (by omega), this.dot.mono (by omega), fun l hl v hv => (this.values l hl v hv).mono (by omega),
    fun v hv => (this.stack v hv).mono (by omega)⟩

example := C103_enough_partial Ex.env Oracle.id (fun _ _ n => List.range n) (fun _ _ _ => .refl _) 9 (b! "$..a[?(@.b==[1])]") _ rfl (by decide)
  Ex.doc Ex.doc_wf (by decide)

/-- In terms of the text: the height of the document and four thirds of the length of the text. -/
theorem C103_text_partial (hv : ∀ s, (pick s).Valid) (d : Nat) (text : Bytes) (ht : text.length ≤ 3 * 2 ^ 20) (p : JSONPath)
    (h : Compile env text = .ok p) (root : V) (hr : root.WF) (hd : 3 * height root + 4 * text.length ≤ 3 * d) :
    dEval d env oracle pick p root = Eval env oracle p root := by
  refine C103_enough_partial env oracle pick hv d text p h (Compile_small h ht) root hr ?_
  have h1 := (C87_size env text p h).1
  have h2 : p.prog.orders.countP builds ≤ p.prog.orders.length := List.countP_le_length
  have h3 : 0 < text.length := by
    rcases text with _ | _
    · exact absurd h (by intro h; cases h)
    · simp
  omega

example (p : JSONPath) (h : Compile Ex.env (b! "$..a[?(@.b==[1])]") = .ok p) := C103_text_partial Ex.env Oracle.id (fun _ _ n => List.range n)
  (fun _ _ _ => .refl _) 100 (b! "$..a[?(@.b==[1])]") (by decide) p h Ex.doc Ex.doc_wf (by decide)

theorem tower_wf : ∀ n, (tower n).WF
  | 0 => by simp [tower, V.WF, WFs]
  | n + 1 => by simp [tower, V.WF, WFs, tower_wf n]

/-- What `$..*` needs, exactly. -/
theorem C103_walk (hv : ∀ s, (pick s).Valid) (n d : Nat) : ∃ p, Compile env (b! "$..*") = .ok p ∧
    dEval d env oracle pick p (tower n) = if d ≤ n then some (.panic "stack overflow") else Eval env oracle p (tower n) := by
  refine ⟨_, rfl, ?_⟩
  split
  · next h =>
    refine dRun_panic rfl ?_
    show (dWalker (oracle 0) d 0 [tower n] >>= _) = _
    rw [dWalker, if_pos (tower_structure n), dWalkdown_tower _ n d _ h]
    rfl
  · next h =>
    exact C103_enough_partial env oracle pick hv d (b! "$..*") _ rfl (by decide) (tower n) (tower_wf n) (by
      rw [tower_height]; show n + 0 < d; omega)

/-- What a descent needs, exactly, on any document: one frame for each array or object around another, if the path begins with the descent
and neither descends nor compares anywhere else. -/
theorem C103_descent (ho : ∀ t, (oracle t).Valid) (d : Nat) (text : Bytes) (p : JSONPath) (h : Compile env text = .ok p)
    (hsz : p.prog.orders.length < 2 ^ 22) (o : Order) (e : Int64) (rest : List Order) (h0 : p.prog.orders = o :: rest)
    (hn : Op.ofNat? o.opNum = some .nest) (hp : o.pc = some e) (hc : ∀ x ∈ rest, goesDown x = false) (root : V) (hr : root.WF) :
    dEval d env oracle pick p root = if d < levels root then some (.panic "stack overflow") else Eval env oracle p root := by
  obtain ⟨r, he, _⟩ := C02_eval_terminates_partial env oracle text p h hsz root hr
  rw [he]
  exact dRun_descent ho h0 hn hp hc he

example := C103_descent Ex.env Oracle.id (fun _ _ n => List.range n) (fun _ _ _ => .refl _) 2 (b! "$..a[0,1].b") _ rfl (by decide) _ _ _ rfl rfl rfl
  (by decide) Ex.doc Ex.doc_wf

/-- `$..*` on any document. -/
theorem C103_all (ho : ∀ t, (oracle t).Valid) (d : Nat) (root : V) (hr : root.WF) : ∃ p, Compile env (b! "$..*") = .ok p ∧
    dEval d env oracle pick p root = if d < levels root then some (.panic "stack overflow") else Eval env oracle p root :=
  ⟨_, rfl, C103_descent env oracle pick ho d (b! "$..*") _ rfl (by decide) _ _ _ rfl rfl rfl (by decide) root hr⟩

example := C103_all Ex.env Oracle.id (fun _ _ n => List.range n) (fun _ _ _ => .refl _) 2 Ex.doc Ex.doc_wf

/-- What a comparison in a filter needs, exactly: one frame more than the height of what is compared. -/
theorem C103_compare (hv : ∀ s, (pick s).Valid) (a : V) (ha : Ordinary a) (hk : KeysDistinct a) (d : Nat) : ∃ p,
    Compile env (b! "$[?(@==@)]") = .ok p ∧
    dEval d env oracle pick p (.arr [a]) = if d ≤ height a then some (.panic "stack overflow") else some (.ok (some [a])) := by
  refine ⟨_, rfl, ?_⟩
  have he := eqVal_refl (env := env) ha hk
  by_cases h : d ≤ height a
  · rw [if_pos h]
    refine (dRun_order rfl rfl).trans ((dRun_order rfl rfl).trans ((dRun_order rfl rfl).trans (dRun_panic rfl ?_)))
    show (dEqVal env _ [] a a d >>= _) = _
    rw [dEqVal_self env (hv _) a hk he [] d h]
    rfl
  · rw [if_neg h]
    have hd : ∀ ord : Ord, ord.Valid → dEqVal env ord [] a a d = .ok true := fun ord ho => by
      rw [dEqVal_enough env ho a [] a d (by omega), he]
    refine (dRun_order (s' := ⟨some [], a, [], 1, [[]], 1⟩) rfl rfl).trans ?_
    refine (dRun_order (s' := ⟨some [], a, [a], 2, [[]], 1⟩) rfl rfl).trans ?_
    refine (dRun_order (s' := ⟨some [], a, [a, a], 3, [[]], 1⟩) rfl rfl).trans ?_
    refine (dRun_order (s' := ⟨some [], a, [.bool true], 4, [[]], 1⟩) rfl ?_).trans ?_
    · show (dEqVal env _ [] a a d >>= _) = _
      rw [hd _ (hv _)]
      rfl
    · refine (dRun_order (s' := ⟨some [a], a, [], 5, [[]], 1⟩) rfl rfl).trans ?_
      refine (dRun_order (s' := ⟨some [a], .null, [], 6, [], 1⟩) rfl rfl).trans ?_
      exact dRun_done rfl

example := C103_compare Ex.env Oracle.id (fun _ _ n => List.range n) (fun _ _ _ => .refl _) (.arr [.int 1, .null])
  (.arr _ fun x hx => by simp at hx; rcases hx with rfl | rfl; exacts [.int 1, .null])
  (.arr _ fun x hx => .other x (by simp at hx; rcases hx with rfl | rfl <;> simp) (by simp at hx; rcases hx with rfl | rfl <;> simp)) 1

/-- No stack is enough for all documents. -/
theorem C103_fails (oracle : Oracle) (pick : MState → Ord) (hv : ∀ s, (pick s).Valid) : ¬ ∃ d, ∀ text p root, Compile env text = .ok p → V.WF root →
    dEval d env oracle pick p root = Eval env oracle p root := by
  rintro ⟨d, h⟩
  obtain ⟨p, hp, he⟩ := C103_walk env oracle pick hv d d
  rw [if_pos (Nat.le_refl d), h _ _ _ hp (tower_wf d)] at he
  exact C03_no_stride_never_panics_partial env oracle (b! "$..*") (by decide) p hp (tower d) (tower_wf d) [⟨.nestWild, []⟩] rfl
    (by rintro n ⟨s, hs, start, stop, hv⟩; simp at hs; subst hs; simp at hv) _ he

example := C103_fails Ex.env Oracle.id (fun _ _ n => List.range n) (fun _ _ _ => .refl _)

end JP
