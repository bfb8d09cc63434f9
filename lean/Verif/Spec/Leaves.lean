import Verif.Spec.Print
import Verif.Model.Text
/-!
Expressions without operands, and those whose text is read as the same expression.
-/
namespace JP.Spec

/-- A character that is printed as itself, or with an escape that paths have too. -/
def PrintsPlain (env : Env) (r : Nat) : Prop :=
  r.isValidChar ∧ (r ∈ [8, 9, 10, 12, 13] ∨ (0x20 ≤ r ∧ r ≠ 0x7F ∧ (r < 0x10000 ∨ env.isPrint r = true)))

/-- The expressions without operands, other than regular expressions, numbers printed without a point, and
strings with characters that are printed with other escapes. -/
inductive PrintedLeaf (env : Env) : Expr → Prop
  | int (n : Int64) : 0 ≤ n.toInt → PrintedLeaf env (.int n)
  | float (f : F64) : f.Finite → f.neg? = false → c! '.' ∈ fmtFloat f → PrintedLeaf env (.float f)
  | str (rs : List Nat) : (∀ r ∈ rs, PrintsPlain env r) → PrintedLeaf env (.str (rs.flatMap utf8))
  | bool (b) : PrintedLeaf env (.bool b)
  | null : PrintedLeaf env .null
  | name (s) : Ident s → s ≠ b! "true" → s ≠ b! "false" → s ≠ b! "null" → PrintedLeaf env (.name s)
  | current : PrintedLeaf env .current
  | root : PrintedLeaf env .root

end JP.Spec
