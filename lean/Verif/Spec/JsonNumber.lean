import Verif.Spec.Presence
import Verif.Spec.Real
/-!
Documents decoded with `UseNumber`, where numbers are kept as texts (`json.Number`).
-/
namespace JP.Spec

/-- A scalar decoded with `UseNumber` and the same decoded without: a number stays a text, and it becomes the nearest
float. -/
inductive AsFloat : V → V → Prop
  | same (v) : AsFloat v v
  | number (s neg q e x) : DecimalText s neg q e → Sane s e → x.Finite → F64.Rounds q x → AsFloat (.num s) (.float x)

/-- Neither the undefined value nor an error. -/
def Defined (v : V) : Prop := ∀ e, v ≠ .err e

end JP.Spec
