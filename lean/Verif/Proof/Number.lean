import Verif.Model.Value
import Verif.Proof.F64
/-! Texts of numbers. -/
namespace JP
variable {env : Env}

theorem ofDecimal_neg {neg : Bool} {m : Nat} {e : Int} {f : F64} (h : ofDecimal neg m e = some f) : f.neg? = neg := by
  unfold ofDecimal at h
  dsimp only at h
  split at h
  · split at h
    · cases h
    · cases h; exact F64.round_neg _ _ _
  · split at h
    · cases h
    · cases h; exact F64.round_neg _ _ _

/-- The sign of the result is that of the text. -/
theorem parseFloat_neg {s : Bytes} {f : F64} (h : env.parseFloat s = some f) : f.neg? = (signed s).1 := by
  unfold Env.parseFloat at h
  split at h
  · exact ofDecimal_neg h
  · obtain ⟨m, -, rfl⟩ := Option.map_eq_some_iff.1 h
    exact F64.neg_mk' _ _

theorem signed_digit {c : UInt8} {s : Bytes} (h : isDigit c = true) : signed (c :: s) = (false, c :: s) := by
  unfold signed
  split
  · next h' => cases h'; exact absurd h (by decide)
  · next h' => cases h'; exact absurd h (by decide)
  · rfl

/-- A text without a sign does not denote a negative number (nor -0). -/
theorem parseFloat_nonneg {c : UInt8} {s : Bytes} {f : F64} (hc : isDigit c = true) (h : env.parseFloat (c :: s) = some f) :
    f.neg? = false := by
  rw [parseFloat_neg h, signed_digit hc]

end JP
