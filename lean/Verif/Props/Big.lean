import Verif.Proof.Big
import Verif.Props.Core
import Verif.Props.Grammar
/-!
Paths of many megabytes: the target of a jump is packed into 23 bits (mach/program.go:34-36), and `Compile`
does not check that it fits.  C02, C03 and C04 are false of them.
-/
namespace JP
open Spec

variable (env : Env) (oracle : Oracle)

/-- `$`, `n` times `[*]`, and `[?(true)]`. -/
def Spec.bigText (n : Nat) : Bytes := b! "$" ++ ((List.replicate n (b! "[*]")).flatten ++ b! "[?(true)]")

theorem big_parse (n : Nat) : parsePath env (bigText n) = .ok (bigPath n) := by
  have h := C30_write_partial env (bigPath n) (by
    intro s hs
    rcases List.mem_append.1 hs with h | h
    · rw [List.eq_of_mem_replicate h]; exact .wild
    · rw [List.mem_singleton.1 h]; exact .filter _ (.bool _))
  rw [← h]
  congr 1
  unfold bigText writePath bigPath
  rw [List.flatMap_append]
  have : ∀ n, (List.replicate n (⟨.wild, []⟩ : Step)).flatMap (writeStep) = (List.replicate n (b! "[*]")).flatten := by
    intro n
    induction n with
    | zero => rfl
    | succ n ih => rw [List.replicate_succ, List.replicate_succ, List.flatMap_cons, ih]; rfl
  rw [this]
  rfl

theorem big_compile (n : Nat) : Compile env (bigText n) = .ok ⟨bigText n, ⟨[], bigOrders n⟩⟩ := by
  unfold Compile
  rw [big_parse]
  simp only
  rw [compile_big]

/-- The full statement of C02. -/
def EvalTerminates : Prop :=
  ∀ (oracle : Oracle) (text : Bytes) (p : JSONPath), Compile env text = .ok p → ∀ (root : V), root.WF →
    ∃ r, Eval env oracle p root = some r

/-- It is false: with 2^23 times `[*]`, the filter jumps to the fourth order when there is nothing to filter, for
ever.  The document is `5`. -/
theorem C02_eval_can_loop : ¬ EvalTerminates env := by
  intro h
  obtain ⟨r, hr⟩ := h Oracle.id _ _ (big_compile env (2 ^ 23)) (.int 5) (by simp [V.WF])
  rw [show Eval env Oracle.id ⟨bigText (2 ^ 23), ⟨[], bigOrders (2 ^ 23)⟩⟩ (.int 5) = none from big_loops env Oracle.id] at hr
  cases hr

/-- With 2^22 times `[*]` it panics, though the path has no slice. -/
theorem C03_long_path_panics :
    ∃ p, Compile env (bigText (2 ^ 22)) = .ok p ∧ Eval env oracle p (.int 5) = some (.panic "branch pc out of range") :=
  ⟨_, big_compile env _, big_panics env oracle⟩

/-- The full statement of C04. -/
def ProgramMeansPath : Prop :=
  ∀ (oracle : Oracle) (text : Bytes) (p : JSONPath) (path : Path), Compile env text = .ok p → parsePath env text = .ok path →
    ∀ (root : V), root.WF → Eval env oracle p root = some (evalPath env oracle root path)

/-- It is false: a direct reading of the path gives no value. -/
theorem C04_long_path_wrong : ¬ ProgramMeansPath env := by
  intro h
  have h1 := h Oracle.id _ _ _ (big_compile env (2 ^ 23)) (big_parse env _) (.int 5) (by simp [V.WF])
  rw [show Eval env Oracle.id ⟨bigText (2 ^ 23), ⟨[], bigOrders (2 ^ 23)⟩⟩ (.int 5) = none from big_loops env Oracle.id] at h1
  cases h1

/-- Few are enough for the same path to mean what it says. -/
example : ∃ p, Compile Ex.env (bigText 3) = .ok p ∧ Eval Ex.env Oracle.id p (.int 5) = some (.ok (some [])) :=
  ⟨_, big_compile Ex.env 3, run_of_runFuel 10 _ rfl⟩

end JP
