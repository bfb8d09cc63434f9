import Verif.Spec.Text
import Verif.Proof.Correct
import Verif.Proof.ParseWF
import Verif.Proof.Size
import Verif.Proof.Safe
import Verif.Proof.PathSize
/-! The public functions in terms of the parser, the compiler and the machine. -/
namespace JP
open Spec

theorem LexErr.In.offsets {text : Bytes} {e : LexErr} (h : e.In text) : ∀ off ∈ e.offsets, off ≤ text.length - 1 := by
  cases e <;> simp_all [LexErr.In, LexErr.offsets]

theorem PErr.In.offsets {text : Bytes} {e : PErr} (h : e.In text) : ∀ off ∈ e.offsets, off ≤ text.length - 1 := by
  cases e <;> simp only [PErr.In, PErr.offsets] at h ⊢
  case lex e => exact h.offsets
  case expectedErr _ off e =>
    intro o ho
    rcases List.mem_cons.1 ho with rfl | ho
    · exact h.1
    · exact h.2.offsets o ho
  case unexpectedLexeme lx =>
    split
    · next e he => exact (h e he).offsets
    · simp
  all_goals simp_all

/-- What a successful `Compile` did. -/
theorem Compile_ok {env : Env} {text : Bytes} {p : JSONPath} (h : Compile env text = .ok p) :
    ∃ path, parsePath env text = .ok path ∧ path.WF ∧ compile path = .ok p.prog ∧ p.expr = text ∧
      p.prog.orders.length = Path.size path ∧ Path.size path ≤ 4 * text.length := by
  unfold Compile at h
  rcases parsePath_ok env text with ⟨path, hp, hw, hs⟩ | ⟨e, he, _⟩
  · rw [hp] at h
    simp only at h
    rcases compile_sz path hw with ⟨prog, hc, hl⟩ | ⟨⟨e, he⟩, _⟩
    · rw [hc] at h
      simp only [Res.ok.injEq] at h
      subst h
      exact ⟨path, hp, hw, hc, rfl, hl, hs⟩
    · rw [he] at h; cases h
  · rw [he] at h; cases h

/-- What `Eval` does, for programs that are not too long. -/
theorem Eval_eq {env : Env} (oracle : Oracle) {text : Bytes} {p : JSONPath} (h : Compile env text = .ok p)
    (hsz : p.prog.orders.length < 2 ^ 22) (root : V) :
    ∃ path, parsePath env text = .ok path ∧ path.WF ∧ Eval env oracle p root = some (evalPath env oracle root path) := by
  obtain ⟨path, hp, hw, hc, _, _, _⟩ := Compile_ok h
  exact ⟨path, hp, hw, run_compile env oracle root path p.prog hw hc hsz⟩

theorem Compile_small {env : Env} {text : Bytes} {p : JSONPath} (h : Compile env text = .ok p) (ht : text.length ≤ 3 * 2 ^ 20) :
    p.prog.orders.length < 2 ^ 22 := by
  obtain ⟨path, hp, _, _, _, h1, _⟩ := Compile_ok h
  have := parsePath_size hp
  omega

theorem wfs_mem {xs : List V} (h : WFs xs) : ∀ x ∈ xs, x.WF := by
  induction xs with
  | nil => simp
  | cons y r ih =>
    unfold WFs at h
    intro x hx
    rcases List.mem_cons.1 hx with rfl | hx
    · exact h.1
    · exact ih h.2 x hx

theorem wfm_mem {kvs : List (Bytes × V)} (h : WFm kvs) : ∀ k x, (k, x) ∈ kvs → x.WF := by
  induction kvs with
  | nil => simp
  | cons y r ih =>
    obtain ⟨k', y⟩ := y
    unfold WFm at h
    intro k x hx
    rcases List.mem_cons.1 hx with hx | hx
    · cases hx; exact h.1
    · exact ih h.2 k x hx

theorem Desc.wf {root v : V} (hd : Desc root v) (h : root.WF) : v.WF := by
  induction hd with
  | root => exact h
  | elem _ hx ih => unfold V.WF at ih; exact wfs_mem ih.2 _ hx
  | member _ hx ih => unfold V.WF at ih; exact wfm_mem ih.2.2 _ _ hx

theorem V.WF.noSlice {root : V} (h : root.WF) : NoSlice root := by
  intro s hs
  have := hs.wf h
  simp [V.WF] at this

theorem V.WF.lens {root : V} (h : root.WF) : LensOk root := by
  intro xs hd
  have := hd.wf h
  simp [V.WF] at this
  exact this.1

theorem StridesFit.slices {root : V} {p : Path} (hr : root.WF) (h : StridesFit root p) :
    ∀ s ∈ p, ∀ v ∈ s.args, v.SlicesOk root := by
  intro s hs v hv
  cases v with
  | slice sl =>
    obtain ⟨start, stop, stride⟩ := sl
    intro xs hd
    have hl := hr.lens xs hd
    cases stride with
    | none => simp only [Slice.strideInt, optInt, Option.getD]; simp; omega
    | some b =>
      cases b with
      | int n => exact h n ⟨s, hs, start, stop, hv⟩ xs hd
      | expr e => simp only [Slice.strideInt, optInt, Option.map, Bound.cvi, Option.getD]; simp; omega
  | _ => trivial

/-! ### The machine's loop -/

theorem run_of_runFuel {env : Env} {oracle : Oracle} {prog : Program} {root : V} {r : Res RErr GoSlice} :
    ∀ (f : Nat) (s : MState), runFuel env oracle prog root f s = some r → run env oracle prog root s = some r
  | 0, s, h => by simp [runFuel] at h
  | f + 1, s, h => by
    rw [run]
    unfold runFuel at h
    cases he : prog.orders[s.pc]? with
    | none => rw [he] at h; exact h
    | some o =>
      rw [he] at h
      simp only at h ⊢
      cases hs : step env oracle prog root o s with
      | ok s' => rw [hs] at h; exact run_of_runFuel f s' h
      | err e => rw [hs] at h; exact h
      | panic m => rw [hs] at h; exact h
      | stuck => rw [hs] at h; exact h

theorem runFuel_mono {env : Env} {oracle : Oracle} {prog : Program} {root : V} {r : Res RErr GoSlice} :
    ∀ (f : Nat) (s : MState), runFuel env oracle prog root f s = some r → runFuel env oracle prog root (f + 1) s = some r
  | 0, s, h => by simp [runFuel] at h
  | f + 1, s, h => by
    unfold runFuel at h ⊢
    cases he : prog.orders[s.pc]? with
    | none => rw [he] at h; exact h
    | some o =>
      rw [he] at h
      simp only at h ⊢
      cases hs : step env oracle prog root o s with
      | ok s' => rw [hs] at h; exact runFuel_mono f s' h
      | err e => rw [hs] at h; exact h
      | panic m => rw [hs] at h; exact h
      | stuck => rw [hs] at h; exact h

/-- The loop ends exactly when it ends within some number of steps. -/
theorem run_eq_some {env : Env} {oracle : Oracle} {prog : Program} {root : V} {r : Res RErr GoSlice} {s : MState} :
    run env oracle prog root s = some r ↔ ∃ f, runFuel env oracle prog root f s = some r := by
  constructor
  · intro h
    refine run.partial_correctness env oracle prog root (fun s r => ∃ f, runFuel env oracle prog root f s = some r) ?_ s r h
    intro run ih s r h
    split at h
    · next he =>
      refine ⟨1, ?_⟩
      unfold runFuel
      rw [he]; exact h
    · next o he =>
      split at h
      · next s' hs =>
        obtain ⟨f, hf⟩ := ih s' r h
        refine ⟨f + 1, ?_⟩
        unfold runFuel
        rw [he]; simp only; rw [hs]; exact hf
      all_goals
        next hs =>
        refine ⟨1, ?_⟩
        unfold runFuel
        rw [he]; simp only; rw [hs]; exact h
  · rintro ⟨f, hf⟩; exact run_of_runFuel f s hf

/-- The loop does not end from a set of states that it never leaves. -/
theorem run_eq_none {env : Env} {oracle : Oracle} {prog : Program} {root : V} (A : MState → Prop)
    (h : ∀ s, A s → ∃ o, prog.orders[s.pc]? = some o ∧ ∃ s', step env oracle prog root o s = .ok s' ∧ A s')
    {s : MState} (hs : A s) : run env oracle prog root s = none := by
  have key : ∀ f s, A s → runFuel env oracle prog root f s = none := by
    intro f
    induction f with
    | zero => intro s _; rfl
    | succ f ih =>
      intro s hs
      obtain ⟨o, ho, s', hs', ha⟩ := h s hs
      unfold runFuel
      rw [ho]; simp only; rw [hs']; exact ih s' ha
  cases hr : run env oracle prog root s with
  | none => rfl
  | some r =>
    obtain ⟨f, hf⟩ := run_eq_some.1 hr
    rw [key f s hs] at hf; cases hf

end JP
