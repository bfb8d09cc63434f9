import Verif.Model.Value
import Verif.Spec.Float
import Verif.Spec.Desc
/-!
The values that encoding/json makes of JSON texts, and can write.
-/
namespace JP.Spec

/-- `json.Unmarshal` into an empty interface: numbers become finite floats. -/
inductive FromJson : V → Prop
  | null : FromJson .null
  | bool (b) : FromJson (.bool b)
  | number (f : F64) : f.Finite → FromJson (.float f)
  | str (s) : FromJson (.str s)
  | arr (xs) : (∀ x ∈ xs, FromJson x) → FromJson (.arr xs)
  | obj (kvs) : (∀ kv ∈ kvs, FromJson kv.2) → FromJson (.obj kvs)

end JP.Spec
