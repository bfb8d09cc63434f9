import Verif.Proof.Api
import Verif.Props.Ex
/-!
Properties of `Compile` and `Eval` as a whole: C01-C07, C42, C45, C48.

`Eval env oracle p root` is `none` when the evaluation does not terminate, and otherwise the way it ends;
`Res.stuck` is not a behaviour of the Go code and is shown not to occur.
-/
namespace JP
open Spec

/-! ### C01 Compile is total -/

/-- Compile returns a path or an error, for every text; it does not panic. -/
theorem C01_compile_total (env : Env) (text : Bytes) :
    (∃ p, Compile env text = .ok p) ∨ (∃ e, Compile env text = .err e) := by
  unfold Compile
  rcases parsePath_ok env text with ⟨path, hp, hw, _⟩ | ⟨e, he, _⟩
  · rw [hp]
    rcases compile_sz path hw with ⟨prog, hc, _⟩ | ⟨⟨e, he⟩, _⟩
    · simp only [hc]; exact .inl ⟨_, rfl⟩
    · simp only [he]; exact .inr ⟨_, rfl⟩
  · rw [he]; exact .inr ⟨_, rfl⟩

/-- The compiler rejects nothing that the parser accepts, unless the text is longer than 3 MB. -/
theorem C01_compile_of_parse (env : Env) (text : Bytes) (path : Path) (h : parsePath env text = .ok path)
    (ht : text.length ≤ 3 * 2 ^ 20) : ∃ p, Compile env text = .ok p := by
  unfold Compile
  rcases parsePath_ok env text with ⟨path', hp, hw, hs⟩ | ⟨e, he, _⟩
  · rw [hp]
    rcases compile_sz path' hw with ⟨prog, hc, _⟩ | ⟨⟨e, he⟩, hbig⟩
    · simp only [hc]; exact ⟨_, rfl⟩
    · have := parsePath_size hp
      unfold indexTop at hbig; omega
  · rw [he] at h; cases h

example : ∃ e, Compile Ex.env (b! "$.a[") = .err e := ⟨_, rfl⟩
example : (Compile Ex.env (b! "$..a[?(@.b > 1)]['x', -2:5]")).isOk = true := by decide +kernel

/-! ### C02 Eval terminates

Full statement: for every `text` accepted by `Compile`, every document and every iteration order, `Eval`
is not `none`.  It is false for some texts of more than 3 MB, whose programs have 2^22 or more orders
(see `Props/Big`).  What is missing here is exactly those programs. -/

/-- Eval terminates for programs of fewer than 2^22 orders. -/
theorem C02_eval_terminates_partial (env : Env) (oracle : Oracle) (text : Bytes) (p : JSONPath)
    (h : Compile env text = .ok p) (hsz : p.prog.orders.length < 2 ^ 22) (root : V) (hr : root.WF) :
    ∃ r, Eval env oracle p root = some r ∧ r ≠ .stuck := by
  obtain ⟨path, _, hw, he⟩ := Eval_eq oracle h hsz root
  refine ⟨_, he, ?_⟩
  have := evalPath_safe (S := False) (N := True) (env := env) (oracle := oracle) hr.noSlice hr.lens path hw (fun _ _ _ => trivial)
    (fun _ _ _ _ hf => hf.elim)
  intro hc
  rw [hc] at this
  exact this

example := C02_eval_terminates_partial Ex.env Oracle.id (b! "$..a[?(@>1)]") _ rfl (by decide) Ex.doc Ex.doc_wf

/-- In terms of the text: everything of at most 3 MB. -/
theorem C02_eval_terminates_text_partial (env : Env) (oracle : Oracle) (text : Bytes)
    (ht : text.length ≤ 3 * 2 ^ 20) (p : JSONPath) (h : Compile env text = .ok p) (root : V) (hr : root.WF) :
    ∃ r, Eval env oracle p root = some r ∧ r ≠ .stuck :=
  C02_eval_terminates_partial env oracle text p h (Compile_small h ht) root hr

example : ∃ r, (∃ p, Compile Ex.env (b! "$..a[?(@>1)]") = .ok p ∧ Eval Ex.env Oracle.id p Ex.doc = some r) ∧ r ≠ .stuck := by
  obtain ⟨p, hp⟩ : ∃ p, Compile Ex.env (b! "$..a[?(@>1)]") = .ok p := ⟨_, rfl⟩
  obtain ⟨r, h1, h2⟩ := C02_eval_terminates_text_partial Ex.env Oracle.id _ (by decide) p hp Ex.doc Ex.doc_wf
  exact ⟨r, ⟨p, hp, h1⟩, h2⟩

/-! ### C03 Eval never panics -/

/-- The full statement. -/
def EvalNeverPanics (env : Env) : Prop :=
  ∀ (oracle : Oracle) (text : Bytes) (p : JSONPath), Compile env text = .ok p → ∀ (root : V), root.WF →
    ∀ m, Eval env oracle p root ≠ some (.panic m)

/-- It is false: `$[1:3:9223372036854775807]` panics on any array of three elements. -/
theorem C03_eval_can_panic (env : Env) : ¬ EvalNeverPanics env := by
  intro h
  refine h Oracle.id (b! "$[1:3:9223372036854775807]") _ rfl (.arr [.null, .null, .null]) ?_ "index out of range" ?_
  · simp [V.WF, WFs]
  · exact run_of_runFuel 10 _ rfl

/-- Eval does not panic if the program has fewer than 2^22 orders and the strides of the path's slices,
added to the lengths of the document's arrays, do not exceed 2^63. -/
theorem C03_eval_never_panics_partial (env : Env) (oracle : Oracle) (text : Bytes) (p : JSONPath)
    (h : Compile env text = .ok p) (hsz : p.prog.orders.length < 2 ^ 22) (root : V) (hr : root.WF) (path : Path)
    (hp : parsePath env text = .ok path) (hst : StridesFit root path) (m : String) :
    Eval env oracle p root ≠ some (.panic m) := by
  obtain ⟨path', hp', hw, he⟩ := Eval_eq oracle h hsz root
  rw [hp] at hp'
  cases hp'
  rw [he]
  have := evalPath_safe (S := True) (N := True) (env := env) (oracle := oracle) hr.noSlice hr.lens path hw (fun _ _ _ => trivial)
    (fun s hs v hv _ => hst.slices hr s hs v hv)
  intro hc
  cases hc' : evalPath env oracle root path <;> rw [hc'] at hc this <;> cases hc
  exact this trivial

example := C03_eval_never_panics_partial Ex.env Oracle.id (b! "$..a[1:2]") _ rfl (by decide) Ex.doc Ex.doc_wf
  [⟨.nestMember, [.name (b! "a")]⟩, ⟨.select, [.slice ⟨some (.int 1), some (.int 2), none⟩]⟩] rfl
  (by rintro n ⟨s, hs, start, stop, hv⟩; simp at hs; rcases hs with rfl | rfl <;> simp at hv)

/-- In particular, a path without a stride (of a text of at most 3 MB) never panics. -/
theorem C03_no_stride_never_panics_partial (env : Env) (oracle : Oracle) (text : Bytes)
    (ht : text.length ≤ 3 * 2 ^ 20) (p : JSONPath) (h : Compile env text = .ok p) (root : V) (hr : root.WF) (path : Path)
    (hp : parsePath env text = .ok path) (hst : ∀ n, ¬ path.HasStride n) (m : String) :
    Eval env oracle p root ≠ some (.panic m) :=
  C03_eval_never_panics_partial env oracle text p h (Compile_small h ht) root hr path hp
    (fun n hn => absurd hn (hst n)) m

example := C03_no_stride_never_panics_partial Ex.env Oracle.id (b! "$..a[1:2]") (by decide) _ rfl Ex.doc Ex.doc_wf
  [⟨.nestMember, [.name (b! "a")]⟩, ⟨.select, [.slice ⟨some (.int 1), some (.int 2), none⟩]⟩] rfl
  (by rintro n ⟨s, hs, start, stop, hv⟩; simp at hs; rcases hs with rfl | rfl <;> simp at hv)

example : StridesFit Ex.doc [⟨.member, [.name (b! "a")]⟩, ⟨.select, [.slice ⟨none, some (.int (-1)), some (.int 2)⟩]⟩] := by
  rintro n ⟨s, hs, start, stop, hv⟩ xs hd
  simp at hs
  rcases hs with rfl | rfl
  · simp at hv
  · simp at hv
    obtain ⟨rfl, rfl, rfl⟩ := hv
    have : ∀ v, Desc Ex.doc v → v = Ex.doc ∨ v = .arr [.int 1, .int 2, .int 3] ∨ v = .obj [(b! "a", .null)] ∨
        v = .null ∨ ∃ n, v = .int n := by
      intro v hv
      induction hv with
      | root => exact .inl rfl
      | elem _ hx ih =>
        rcases ih with h | h | h | h | ⟨n, h⟩ <;> simp [Ex.doc] at h
        subst h; simp at hx; rcases hx with h | h | h <;> exact .inr (.inr (.inr (.inr ⟨_, h⟩)))
      | member _ hx ih =>
        rcases ih with h | h | h | h | ⟨n, h⟩ <;> simp [Ex.doc] at h
        · subst h; simp at hx; rcases hx with ⟨_, h⟩ | ⟨_, h⟩
          · exact .inr (.inl h)
          · exact .inr (.inr (.inl h))
        · subst h; simp at hx; exact .inr (.inr (.inr (.inl hx.2)))
    rcases this _ hd with h | h | h | h | ⟨n, h⟩ <;> simp [Ex.doc] at h
    subst h
    decide

/-! ### C04 The compiled program means what the path says

Full statement: for every path tree and every document, running the compiled program gives what
`Spec.evalPath` gives.  It is false for programs of 2^22 or more orders (`Props/Big`), because the targets
of jumps are packed into 23 bits; the theorem below leaves out exactly those. -/

/-- For every path tree: running its program gives what the direct reading of the tree gives. -/
theorem C04_program_means_path_partial (env : Env) (oracle : Oracle) (root : V) (path : Path) (hw : path.WF)
    (prog : Program) (h : compile path = .ok prog) (hsz : prog.orders.length < 2 ^ 22) :
    run env oracle prog root (MState.init root) = some (evalPath env oracle root path) :=
  run_compile env oracle root path prog hw h hsz

example := C04_program_means_path_partial Ex.env Oracle.id Ex.doc
  [⟨.nestMember, [.name (b! "a")]⟩, ⟨.filter, [.expr (.inner .gt [.current, .int 1])]⟩]
  (by rcases parsePath_ok Ex.env (b! "$..a[?(@>1)]") with ⟨_, h, hw, _⟩ | ⟨_, h, _⟩ <;> cases h; exact hw) _ rfl (by decide)

/-- For every text. -/
theorem C04_eval_means_text_partial (env : Env) (oracle : Oracle) (text : Bytes) (p : JSONPath)
    (h : Compile env text = .ok p) (hsz : p.prog.orders.length < 2 ^ 22) (root : V) (path : Path)
    (hp : parsePath env text = .ok path) :
    Eval env oracle p root = some (evalPath env oracle root path) := by
  obtain ⟨path', hp', _, he⟩ := Eval_eq oracle h hsz root
  rw [hp] at hp'
  cases hp'
  exact he

example : ∃ path p, parsePath Ex.env (b! "$..a[?(@>1)]") = .ok path ∧ Compile Ex.env (b! "$..a[?(@>1)]") = .ok p ∧
    p.prog.orders.length < 2 ^ 22 ∧ evalPath Ex.env Oracle.id Ex.doc path = .ok (some [.int 2, .int 3]) :=
  ⟨_, _, rfl, rfl, by decide, rfl⟩

/-! ### C05 Operands survive packing into program words -/

/-- An operator packed with a signed 23-bit integer. -/
theorem C05_small (op : Op) (n : Int64) (h : -2 ^ 22 ≤ n.toInt ∧ n.toInt < 2 ^ 22) :
    Op.ofNat? (mkSmall op n).opNum = some op ∧ (mkSmall op n).isSmallInt = true ∧ (mkSmall op n).smallInt = n ∧
    (mkSmall op n).pc = some n ∧ (mkSmall op n).index = none := by
  have hs : isSmallInt n = true := (Int64.small_iff n).2 (by omega)
  have h1 := mkSmall_smallInt op n hs
  have h2 := mkSmall_isSmallInt op n
  refine ⟨?_, h2, h1, ?_, ?_⟩
  · rw [mkSmall_opNum, Op.ofNat?_toNat]
  · rw [mkSmall_pc, h1]
  · unfold Order.index
    unfold Order.isSmallInt at h2
    rw [if_pos h2]

example := C05_small .index (-4194304) (by decide)

/-- An operator packed with the index of a constant. -/
theorem C05_index (op : Op) (i : UInt32) (h : i.toNat < 2 ^ 22) :
    Op.ofNat? (mkOrder op i).opNum = some op ∧ (mkOrder op i).isSmallInt = false ∧ (mkOrder op i).index = some i ∧
    (mkOrder op i).pc = none := by
  have h2 := mkOrder_isSmallInt op i (by omega)
  refine ⟨?_, h2, mkOrder_index op i (by omega), ?_⟩
  · rw [mkOrder_opNum op i (by omega), Op.ofNat?_toNat]
  · unfold Order.pc
    unfold Order.isSmallInt at h2
    rw [if_pos (by simpa using h2)]

example := C05_index .string 4194303 (by decide)

/-- The two kinds are never confused, and packing is injective. -/
theorem C05_distinct (op op' : Op) (n m : Int64) (i j : UInt32) (hn : -2 ^ 22 ≤ n.toInt ∧ n.toInt < 2 ^ 22)
    (hm : -2 ^ 22 ≤ m.toInt ∧ m.toInt < 2 ^ 22) (hi : i.toNat < 2 ^ 22) (hj : j.toNat < 2 ^ 22) :
    mkSmall op n ≠ mkOrder op' i ∧ (mkSmall op n = mkSmall op' m → op = op' ∧ n = m) ∧
    (mkOrder op i = mkOrder op' j → op = op' ∧ i = j) := by
  have a := C05_small op n hn
  have b := C05_small op' m hm
  have c := C05_index op i hi
  have c' := C05_index op' i hi
  have d := C05_index op' j hj
  refine ⟨?_, ?_, ?_⟩
  · intro h
    have h1 := a.2.1
    rw [h, c'.2.1] at h1
    cases h1
  · intro h
    rw [h] at a
    exact ⟨by simpa using a.1.symm.trans b.1, a.2.2.1.symm.trans b.2.2.1⟩
  · intro h
    rw [h] at c
    exact ⟨by simpa using c.1.symm.trans d.1, by simpa using c.2.2.1.symm.trans d.2.2.1⟩

example := C05_distinct .index .string (-1) 4194303 4194303 0 (by decide) (by decide) (by decide) (by decide)

/-- An integer literal of any 64-bit value: the order compiled for it pushes exactly that value, in every
program that continues the one it was compiled into. -/
theorem C05_int_literal (n : Int64) (p p' : Program) (hp : p.vals.length ≤ indexTop) (h : codeExpr (.int n) p = .ok p') :
    ∃ o, p'.orders = p.orders ++ [o] ∧
      ∀ env oracle (prog : Program) root s, p'.vals <+: prog.vals →
        step env oracle prog root o s = .ok { s with pc := s.pc + 1, stack := .int n :: s.stack } := by
  have small : isSmallInt n = true → ∀ env oracle (prog : Program) root s,
      step env oracle prog root (mkSmall .int n) s = .ok { s with pc := s.pc + 1, stack := .int n :: s.stack } := by
    intro hs env oracle prog root s
    rw [step_small]
    simp only [exec, mkSmall_isSmallInt, mkSmall_smallInt _ _ hs, if_true, MState.push]
  by_cases hs : isSmallInt n = true
  · unfold codeExpr at h
    rw [if_pos hs] at h
    cases h
    exact ⟨mkSmall .int n, by simp [asm], fun env oracle prog root s _ => small hs env oracle prog root s⟩
  · unfold codeExpr at h
    rw [if_neg hs] at h
    obtain ⟨o, ho, _, _, h⟩ := codeOp_ok h hp
    refine ⟨o, ho, ?_⟩
    rcases h with ⟨m, hm, hs', rfl⟩ | ⟨i, w, rfl, hi, hw, hwv⟩
    · cases hm; exact absurd hs' hs
    · have hw' : w = .int n := by
        rcases hwv with h | h
        · exact h
        · exact keyEq_eq h (by cases w <;> simp [PVal.keyEq] at h; trivial) trivial
      subst hw'
      intro env oracle prog root s hpre
      rw [step_index _ _ _ _ _ _ _ hi]
      have h3 := mkOrder_isSmallInt .int i (by omega)
      have h4 := mkOrder_index .int i (by omega)
      simp only [exec, h3, pushVal, h4, prefix_getElem? hpre hw, PVal.value, MState.push, Bool.false_eq_true, if_false]

example : (codeExpr (.int 9223372036854775807) ⟨[.name (b! "a")], []⟩).map' (·.vals.length) = .ok 2 := rfl

/-! ### C06 A successful Eval never returns a nil list -/

theorem C06_result_not_nil (env : Env) (oracle : Oracle) (p : JSONPath) (root : V) (r : GoSlice)
    (h : Eval env oracle p root = some (.ok r)) : ∃ vs, r = some vs := by
  unfold Eval at h
  have := run.partial_correctness env oracle p.prog root (fun _ res => ∀ r, res = .ok r → ∃ vs, r = some vs) ?_ _ _ h
  · exact this r rfl
  · intro run ih s r h res hr
    subst hr
    split at h
    · simp only [Option.some.injEq, Res.ok.injEq] at h
      subst h
      unfold MState.result
      split <;> exact ⟨_, rfl⟩
    · split at h
      · exact ih _ _ h _ rfl
      · cases h
      · cases h
      · cases h

example : ∃ p, Compile Ex.env (b! "$.nosuch[0]") = .ok p ∧ Eval Ex.env Oracle.id p Ex.doc = some (.ok (some [])) :=
  ⟨_, rfl, run_of_runFuel 10 _ rfl⟩

/-! ### C07 Results come from the document -/

/-- The full statement. -/
def ResultsFromDocument (env : Env) : Prop :=
  ∀ (oracle : Oracle) (text : Bytes) (p : JSONPath), Compile env text = .ok p → ∀ (root : V), root.WF →
    ∀ vs, Eval env oracle p root = some (.ok (some vs)) → ∀ v ∈ vs, Desc root v

/-- It is false: `$[?(true)]` of the empty array is `[null]`. -/
theorem C07_result_not_from_document (env : Env) : ¬ ResultsFromDocument env := by
  intro h
  have := h Oracle.id (b! "$[?(true)]") _ rfl (.arr []) (by simp [V.WF, WFs]) [.null] (run_of_runFuel 10 _ rfl) .null (by simp)
  rcases desc_arr this with h | ⟨_, h, _⟩
  · cases h
  · cases h

/-- Every result is the root or one of its descendants, or else a null and the path has a filter.
(For programs of fewer than 2^22 orders.) -/
theorem C07_results_from_document_partial (env : Env) (oracle : Oracle) (text : Bytes) (p : JSONPath)
    (h : Compile env text = .ok p) (hsz : p.prog.orders.length < 2 ^ 22) (root : V) (hr : root.WF) (path : Path)
    (hp : parsePath env text = .ok path) (vs : List V) (he : Eval env oracle p root = some (.ok (some vs))) :
    ∀ v ∈ vs, Desc root v ∨ (path.hasFilter = true ∧ v = .null) := by
  rw [C04_eval_means_text_partial env oracle text p h hsz root path hp] at he
  simp only [Option.some.injEq] at he
  obtain ⟨path', hp', hw, _⟩ := Eval_eq oracle h hsz root
  rw [hp] at hp'
  cases hp'
  have := evalPath_safe (S := False) (N := path.hasFilter = true) (env := env) (oracle := oracle) hr.noSlice hr.lens path hw
    (by
      intro s hs hf
      unfold Path.hasFilter
      rw [List.any_eq_true]
      exact ⟨s, hs, hf⟩)
    (fun _ _ _ _ hf => hf.elim)
  rw [he] at this
  obtain ⟨vs', hvs, h⟩ := this
  cases hvs
  exact h

example := C07_results_from_document_partial Ex.env Oracle.id (b! "$.a[?(@>1)]") _ rfl (by decide) Ex.doc Ex.doc_wf _ rfl _
  (run_of_runFuel 30 _ rfl)

/-- Paths without filters return only values of the document. -/
theorem C07_no_filter_results_from_document_partial (env : Env) (oracle : Oracle) (text : Bytes)
    (p : JSONPath) (h : Compile env text = .ok p) (hsz : p.prog.orders.length < 2 ^ 22) (root : V) (hr : root.WF)
    (path : Path) (hp : parsePath env text = .ok path) (hf : path.hasFilter = false) (vs : List V)
    (he : Eval env oracle p root = some (.ok (some vs))) : ∀ v ∈ vs, Desc root v := by
  intro v hv
  rcases C07_results_from_document_partial env oracle text p h hsz root hr path hp vs he v hv with h | ⟨h, _⟩
  · exact h
  · rw [hf] at h; cases h

example : ∃ p, Compile Ex.env (b! "$..*") = .ok p ∧ p.prog.orders.length < 2 ^ 22 ∧ ∃ path,
    parsePath Ex.env (b! "$..*") = .ok path ∧ path.hasFilter = false ∧ ∃ vs,
    Eval Ex.env Oracle.id p Ex.doc = some (.ok (some vs)) ∧ vs.length = 6 :=
  ⟨_, rfl, by decide, _, rfl, rfl, _, run_of_runFuel 20 _ rfl, rfl⟩

/-! ### C42 MustCompile and String -/

/-- MustCompile panics exactly when Compile returns an error, and otherwise returns the same path. -/
theorem C42_mustCompile (env : Env) (text : Bytes) :
    ((∃ m, MustCompile env text = .panics m) ↔ ∃ e, Compile env text = .err e) ∧
    (∀ p, MustCompile env text = .path p ↔ Compile env text = .ok p) := by
  unfold MustCompile
  rcases C01_compile_total env text with ⟨p, h⟩ | ⟨e, h⟩ <;> rw [h] <;> simp

/-- String returns the text. -/
theorem C42_string (env : Env) (text : Bytes) (p : JSONPath) (h : Compile env text = .ok p) : p.string = text := by
  obtain ⟨_, _, _, _, he, _⟩ := Compile_ok h
  exact he

example : ∃ p, MustCompile Ex.env (b! "$.a") = .path p ∧ p.string = b! "$.a" := ⟨_, rfl, rfl⟩
example : ∃ m, MustCompile Ex.env (b! "$.") = .panics m := ⟨_, rfl⟩

/-! ### C45 Parse errors point into the text -/

/-- Every offset in an error that Compile returns is that of a byte of the text (or 0, if there are none). -/
theorem C45_error_offsets (env : Env) (text : Bytes) (e : PErr) (h : Compile env text = .err (.parse e)) :
    ∀ off ∈ e.offsets, off ≤ text.length - 1 := by
  unfold Compile at h
  rcases parsePath_ok env text with ⟨path', hp, hw, hs⟩ | ⟨e', he, hin⟩
  · rw [hp] at h
    rcases compile_sz path' hw with ⟨prog, hc, _⟩ | ⟨⟨e, he⟩, _⟩
    · simp only [hc] at h; cases h
    · simp only [he] at h; cases h
  · rw [he] at h
    cases h
    exact hin.offsets

example := C45_error_offsets Ex.env (b! "$.a[0,#]") _ rfl

/-- The same for expressions parsed on their own. -/
theorem C45_script_error_offsets (env : Env) (text : Bytes) (e : PErr) (h : parseScriptExpression env text = .err e) :
    ∀ off ∈ e.offsets, off ≤ text.length - 1 := by
  rcases parseScriptExpression_ok env text with ⟨e', he, _⟩ | ⟨e', he, hin⟩
  · rw [he] at h; cases h
  · rw [he] at h
    cases h
    exact hin.offsets

example : ∃ e, Compile Ex.env (b! "$.a[0,#]") = .err (.parse e) ∧ e.offsets = [6] := ⟨_, rfl, rfl⟩

/-! ### C48 The path `$` returns the root -/

theorem C48_root (env : Env) (oracle : Oracle) (root : V) :
    ∃ p, Compile env (b! "$") = .ok p ∧ Eval env oracle p root = some (.ok (some [root])) :=
  ⟨_, rfl, run_of_runFuel 1 _ rfl⟩

end JP
