import Verif.Proof.SimPath
/-! The constants of a compiled program; correctness of the compiler and the machine together. -/
namespace JP
open Spec

/-- All constants of a program are acceptable as table entries. -/
def Program.ValsOk (p : Program) : Prop := ∀ w ∈ p.vals, w.Ok

theorem mkVal_valsOk {v : PVal} {p p' : Program} {i : UInt32} (h : mkVal v p = .ok (i, p')) (hv : v.Ok)
    (hp : p.ValsOk) : p'.ValsOk := by
  unfold mkVal at h
  split at h
  · cases h; exact hp
  · simp only at h
    split at h
    · cases h
    · cases h
      intro w hw
      simp only [List.mem_append, List.mem_singleton] at hw
      rcases hw with hw | rfl
      · exact hp w hw
      · exact hv

theorem codeOp_valsOk {op : Op} {v : Option PVal} {p p' : Program} (h : codeOp op v p = .ok p')
    (hv : ∀ w, v = some w → w.Ok) (hp : p.ValsOk) : p'.ValsOk := by
  have gen : ∀ v : PVal, v.Ok → (do
      let (i, p) ← mkVal v p
      Res.ok (asm (mkOrder op i) p) : Res CErr Program) = .ok p' → p'.ValsOk := by
    intro v hv h
    obtain ⟨⟨i, q⟩, hq, h⟩ := bind_eq_ok h
    cases h
    exact (mkVal_valsOk hq hv hp : q.ValsOk)
  unfold codeOp at h
  split at h
  · cases h; exact hp
  · next v =>
    simp only at h
    split at h
    · split at h
      · cases h; exact hp
      · next n _ => exact gen (.int n) trivial h
    · exact gen _ (hv _ rfl) h

mutual
theorem codeExpr_valsOk : ∀ (e : Expr) {p p' : Program}, e.WF → codeExpr e p = .ok p' → p.ValsOk → p'.ValsOk
  | .int n, p, p', _, h, hp => by
    unfold codeExpr at h
    split at h
    · cases h; exact hp
    · exact codeOp_valsOk h (by rintro w ⟨⟩; trivial) hp
  | .float f, p, p', hw, h, hp => by
    unfold codeExpr at h
    cases hw with
    | float _ hf => exact codeOp_valsOk h (by rintro w ⟨⟩; exact hf) hp
  | .str f, p, p', _, h, hp => by unfold codeExpr at h; exact codeOp_valsOk h (by rintro w ⟨⟩; trivial) hp
  | .name f, p, p', _, h, hp => by unfold codeExpr at h; exact codeOp_valsOk h (by rintro w ⟨⟩; trivial) hp
  | .re f, p, p', _, h, hp => by unfold codeExpr at h; exact codeOp_valsOk h (by rintro w ⟨⟩; trivial) hp
  | .bool b, p, p', _, h, hp => by unfold codeExpr at h; cases h; exact hp
  | .null, p, p', _, h, hp => by unfold codeExpr at h; exact codeOp_valsOk h (by rintro w ⟨⟩) hp
  | .current, p, p', _, h, hp => by unfold codeExpr at h; exact codeOp_valsOk h (by rintro w ⟨⟩) hp
  | .root, p, p', _, h, hp => by unfold codeExpr at h; exact codeOp_valsOk h (by rintro w ⟨⟩) hp
  | .inner op kids, p, p', hw, h, hp => by
    unfold codeExpr at h
    split at h
    · split at h
      · exact codeOp_valsOk h (by rintro w ⟨⟩) hp
      · cases h
    · obtain ⟨q, hq, h⟩ := bind_eq_ok h
      cases h
      exact (codeKids_valsOk kids (WF_inner hw).1 hq hp : q.ValsOk)
theorem codeKids_valsOk : ∀ (es : List Expr) {p p' : Program}, Exprs.WF es → codeKids es p = .ok p' →
    p.ValsOk → p'.ValsOk
  | [], p, p', _, h, hp => by unfold codeKids at h; cases h; exact hp
  | e :: r, p, p', hw, h, hp => by
    cases hw with
    | cons _ _ h1 h2 =>
    unfold codeKids at h
    obtain ⟨q, hq, h⟩ := bind_eq_ok h
    exact codeKids_valsOk r h2 h (codeExpr_valsOk e h1 hq hp)
end

theorem codeVal_valsOk {op : Op} {v : Val} {p p' : Program} (hw : v.WF) (h : codeVal op v p = .ok p')
    (hp : p.ValsOk) : p'.ValsOk := by
  cases v with
  | expr e => exact codeExpr_valsOk _ hw h hp
  | _ =>
    simp only [codeVal] at h
    split at h
    · exact codeOp_valsOk h (by rintro w ⟨⟩) hp
    · exact codeOp_valsOk h (by rintro w ⟨⟩; trivial) hp

theorem codeArgs_valsOk : ∀ (vs : List Val) {p p' : Program}, (∀ v ∈ vs, v.WF) → codeArgs vs p = .ok p' →
    p.ValsOk → p'.ValsOk
  | [], p, p', _, h, hp => by unfold codeArgs at h; cases h; exact hp
  | v :: r, p, p', hw, h, hp => by
    unfold codeArgs at h
    obtain ⟨q, hq, h⟩ := bind_eq_ok h
    exact codeArgs_valsOk r (fun v hv => hw v (by simp [hv])) h (codeVal_valsOk (hw v (by simp)) hq hp)

theorem codeStep_valsOk {s : Step} {p p' : Program} (hw : s.WF) (h : codeStep s p = .ok p')
    (hp : p.ValsOk) : p'.ValsOk := by
  unfold codeStep at h
  obtain ⟨q, hq, h⟩ := bind_eq_ok h
  cases h
  exact (codeArgs_valsOk _ hw.1 hq hp : q.ValsOk)

theorem codeLoop_valsOk {s : Step} {op : Op} {p p' : Program} (hw : s.WF) (h : codeLoop s op p = .ok p')
    (hp : p.ValsOk) : p'.ValsOk := by
  unfold codeLoop at h
  simp only at h
  obtain ⟨q, hq, h⟩ := bind_eq_ok h
  cases h
  exact (codeStep_valsOk hw hq (p := asm (mkSmall op 0) p) hp : q.ValsOk)

theorem codePathStep_valsOk {s : Step} {p p' : Program} (hw : s.WF) (h : codePathStep s p = .ok p')
    (hp : p.ValsOk) : p'.ValsOk := by
  unfold codePathStep at h
  by_cases hc : (s.op.isLeaf && s.op.hasVal) = true
  · rw [if_pos hc] at h
    cases ha : s.args with
    | nil => rw [ha] at h; cases h
    | cons v r => rw [ha] at h; exact codeVal_valsOk (hw.1 v (by simp [ha])) h hp
  · rw [if_neg hc] at h
    cases hop : s.op <;> rw [hop] at h <;> first
      | exact codeLoop_valsOk hw h hp
      | exact codeStep_valsOk hw h hp

theorem codePath_valsOk : ∀ (path : Path) {p p' : Program}, path.WF → codePath path p = .ok p' →
    p.ValsOk → p'.ValsOk
  | [], p, p', _, h, hp => by unfold codePath at h; cases h; exact hp
  | v :: r, p, p', hw, h, hp => by
    unfold codePath at h
    obtain ⟨q, hq, h⟩ := bind_eq_ok h
    exact codePath_valsOk r (fun v hv => hw v (by simp [hv])) h (codePathStep_valsOk (hw v (by simp)) hq hp)

/-- A way to run programs, applied to the compiled program of a path. -/
theorem runs_compile (env : Env) (oracle : Oracle) (root : V) (path : Path) (prog : Program)
    (hw : path.WF) (h : compile path = .ok prog) (hsz : prog.orders.length < 2 ^ 22)
    {R : Nat → MState → Option (Res RErr GoSlice)} (hR : Runs env oracle prog root R) (n : Nat) :
    R (n + cost env oracle root path (some [root]) 0) (MState.init root) =
      bindRun (evalSteps env oracle root path (some [root]) 0) fun (out, t) =>
        R n { MState.init root with out := out, pc := prog.orders.length, tick := t } :=
  sim_path env oracle prog root hR (codePath_valsOk path hw h (by intro w hw; cases hw)) hsz path hw h
    (by simp [Program.Small]) ⟨by simp, List.prefix_rfl, Nat.le_refl _⟩ (MState.init root) rfl rfl rfl rfl rfl

/-- The compiled program, run on a document, does what the path says. -/
theorem run_compile (env : Env) (oracle : Oracle) (root : V) (path : Path) (prog : Program)
    (hw : path.WF) (h : compile path = .ok prog) (hsz : prog.orders.length < 2 ^ 22) :
    run env oracle prog root (MState.init root) = some (evalPath env oracle root path) := by
  have := runs_compile env oracle root path prog hw h hsz (run_runs env oracle prog root) 0
  simp only at this
  rw [this]
  unfold evalPath
  cases evalSteps env oracle root path (some [root]) 0 with
  | ok a =>
    obtain ⟨out, t⟩ := a
    simp only [bindRun_ok, Res.bind_ok]
    rw [run_end (Nat.le_refl _)]
    congr 2
    unfold MState.result
    cases out <;> rfl
  | err e => rfl
  | panic m => rfl
  | stuck => rfl

/-- The same, and in how many orders. -/
theorem runFuel_compile (env : Env) (oracle : Oracle) (root : V) (path : Path) (prog : Program)
    (hw : path.WF) (h : compile path = .ok prog) (hsz : prog.orders.length < 2 ^ 22) :
    runFuel env oracle prog root (cost env oracle root path (some [root]) 0 + 1) (MState.init root) =
      some (evalPath env oracle root path) := by
  rw [Nat.add_comm, runs_compile env oracle root path prog hw h hsz (runFuel_runs env oracle prog root) 1]
  unfold evalPath
  cases evalSteps env oracle root path (some [root]) 0 with
  | ok a =>
    obtain ⟨out, t⟩ := a
    simp only [bindRun_ok, Res.bind_ok]
    rw [runFuel, List.getElem?_eq_none (Nat.le_refl _)]
    simp only
    congr 2
    unfold MState.result
    cases out <;> rfl
  | err e => rfl
  | panic m => rfl
  | stuck => rfl

/-- If all goes well it takes no fewer. -/
theorem runFuel_compile_lt (env : Env) (oracle : Oracle) (root : V) (path : Path) (prog : Program)
    (hw : path.WF) (h : compile path = .ok prog) (hsz : prog.orders.length < 2 ^ 22) {out : GoSlice}
    (he : evalPath env oracle root path = .ok out) :
    runFuel env oracle prog root (cost env oracle root path (some [root]) 0) (MState.init root) = none := by
  have := runs_compile env oracle root path prog hw h hsz (runFuel_runs env oracle prog root) 0
  rw [Nat.zero_add] at this
  rw [this]
  unfold evalPath at he
  obtain ⟨⟨out, t⟩, h1, _⟩ := bind_eq_ok he
  rw [h1, bindRun_ok]
  rfl

end JP
