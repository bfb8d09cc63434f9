import Verif.Model.CodeTime
import Verif.Proof.ParseTime
import Verif.Proof.PathSize
/-!
The coder with a clock does what the coder does, and takes a number of steps that is linear in the size of the path.
-/
namespace JP

/-- Building with a clock is building, and takes at most `c` steps. -/
def Brief (x : TB) (y : Bld) (c : Nat) : Prop := ∀ p, (x p).1 = y p ∧ (x p).2 ≤ c

namespace Brief
variable {x x' : TB} {y y' : Bld} {c d n : Nat}

theorem seq (h : Brief x y c) (h' : Brief x' y' d) : Brief (TB.seq x x') (fun p => y p >>= y') (c + d) := by
  intro p
  obtain ⟨h1, h2⟩ := h p
  unfold TB.seq
  show _ = Res.bind (y p) y' ∧ _
  rw [← h1]
  generalize x p = r at h1 h2
  obtain ⟨r, n⟩ := r
  simp only at h1 h2
  rcases r with p' | e | m | _
  · obtain ⟨h3, h4⟩ := h' p'
    exact ⟨h3, by dsimp only; omega⟩
  all_goals exact ⟨rfl, by dsimp only; omega⟩
theorem of : Brief (TB.of n y) y n := fun _ => ⟨rfl, Nat.le_refl _⟩
theorem after (h : Brief x y c) : Brief (TB.after n x) y (n + c) := fun p => ⟨(h p).1, by have := (h p).2; show n + (x p).2 ≤ _; omega⟩
theorem mono (h : Brief x y c) (hc : c ≤ d) : Brief x y d := fun p => ⟨(h p).1, Nat.le_trans (h p).2 hc⟩
end Brief

mutual
theorem kExpr_brief : ∀ e : Expr, Brief (kExpr e) (codeExpr e) (6 * e.size - 1)
  | .inner op kids => by
    unfold kExpr codeExpr
    have h := kKids_brief kids
    simp only [Expr.size]
    by_cases h1 : op.isLeaf
    · simp only [h1, if_true]
      by_cases h2 : !op.hasVal
      · simp only [h2, if_true]
        exact (Brief.of.after).mono (by omega)
      · simp only [h2]
        exact (Brief.of.after).mono (by omega)
    · simp only [h1]
      exact ((h.seq Brief.of).after).mono (by omega)
  | .int n => by unfold kExpr; exact .of
  | .float n => by unfold kExpr; exact .of
  | .str n => by unfold kExpr; exact .of
  | .name n => by unfold kExpr; exact .of
  | .re n => by unfold kExpr; exact .of
  | .bool n => by unfold kExpr; exact .of
  | .null => by unfold kExpr; exact .of
  | .current => by unfold kExpr; exact .of
  | .root => by unfold kExpr; exact .of
theorem kKids_brief : ∀ es : List Expr, Brief (kKids es) (codeKids es) (6 * Exprs.size es)
  | [] => by unfold kKids codeKids; exact Brief.of.mono (by omega)
  | e :: r => by
    unfold kKids codeKids
    have h := Expr.size_pos e
    refine (((kExpr_brief e).seq (kKids_brief r)).after).mono ?_
    simp only [Exprs.size]
    omega
end

theorem Val.size_pos' (v : Val) : 1 ≤ v.size := by
  cases v with
  | expr e => exact Expr.size_pos e
  | _ => exact Nat.le_refl _

theorem kVal_brief (op : Op) (v : Val) : Brief (kVal op v) (codeVal op v) (6 * v.size) := by
  have h := Val.size_pos' v
  unfold kVal
  cases v with
  | expr e => exact ((kExpr_brief e).after).mono (by simp only [Val.size] at *; omega)
  | _ => exact (Brief.of.after).mono (by simp only [Val.size]; omega)

theorem kArgs_brief : ∀ vs : List Val, Brief (kArgs vs) (codeArgs vs) (8 * Vals.size vs)
  | [] => by unfold kArgs codeArgs; exact Brief.of.mono (by omega)
  | v :: r => by
    unfold kArgs codeArgs
    have h := Val.size_pos' v
    refine (((kVal_brief _ v).seq (kArgs_brief r)).after).mono ?_
    simp only [Vals.size]
    omega

theorem kStep_brief (s : Step) : Brief (kStep s) (codeStep s) (8 * Vals.size s.args + 3) := by
  unfold kStep codeStep
  exact (((kArgs_brief s.args).seq Brief.of).after).mono (by omega)

theorem kLoop_brief (s : Step) (intro : Op) : Brief (kLoop s intro) (codeLoop s intro) (8 * Vals.size s.args + 7) := by
  intro p
  unfold kLoop codeLoop
  exact (((kStep_brief s).seq Brief.of).after).mono (by omega) _

theorem kPathStep_brief (s : Step) : Brief (kPathStep s) (codePathStep s) (8 * s.size) := by
  unfold kPathStep codePathStep
  by_cases h : (s.op.isLeaf && s.op.hasVal) = true
  · rw [if_pos h, if_pos h]
    cases ha : s.args with
    | nil => exact (Brief.of.after).mono (by unfold Step.size; omega)
    | cons v r =>
      refine ((kVal_brief _ v).after).mono ?_
      unfold Step.size
      rw [ha]
      simp only [Vals.size]
      omega
  · rw [if_neg h, if_neg h]
    have h1 := kStep_brief s
    have h2 := kLoop_brief s .nest
    have h3 := kLoop_brief s .for_
    unfold Step.size
    cases s.op <;> first
      | exact h1.after.mono (by dsimp only; omega)
      | exact h2.after.mono (by dsimp only; omega)
      | exact h3.after.mono (by dsimp only; omega)

theorem kPath_brief : ∀ path : Path, Brief (kPath path) (codePath path) (8 * Path.size path)
  | [] => by unfold kPath codePath; exact Brief.of.mono (by omega)
  | s :: r => by
    unfold kPath codePath
    refine ((kPathStep_brief s).seq (kPath_brief r)).mono ?_
    simp only [Path.size]
    omega

theorem kCompile_brief (path : Path) : (kCompile path).1 = compile path ∧ (kCompile path).2 ≤ 8 * Path.size path + 1 := by
  have h := ((kPath_brief path).after (n := 1)) ⟨[], []⟩
  exact ⟨h.1, by have := h.2; unfold kCompile; omega⟩

theorem tCompile_runs (env : Env) (text : Bytes) : (tCompile env text).1 = Compile env text ∧ (tCompile env text).2 ≤ 51 * text.length + 17 := by
  obtain ⟨h1, h2⟩ := tParsePath_runs env text
  unfold tCompile Compile
  generalize tParsePath env text = r at h1 h2
  obtain ⟨r, n⟩ := r
  simp only at h1 h2
  rw [← h1]
  rcases r with path | e | m | _
  · have h3 := parsePath_size h1.symm
    obtain ⟨h4, h5⟩ := kCompile_brief path
    dsimp only
    generalize kCompile path = k at h4 h5 ⊢
    obtain ⟨k, m⟩ := k
    simp only at h4 h5
    rw [← h4]
    rcases k with prog | e | s | _ <;> exact ⟨rfl, by dsimp only; omega⟩
  all_goals exact ⟨rfl, by dsimp only; omega⟩

end JP
