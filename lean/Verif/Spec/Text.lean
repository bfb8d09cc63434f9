import Verif.Model.Api
import Verif.Spec.Slice
import Verif.Spec.Desc
/-! Vocabulary for statements about texts of paths, and about the arguments of their steps. -/
namespace JP

/-- The offsets that a lexical error mentions. -/
def LexErr.offsets : LexErr → List Nat
  | .charAfter _ _ off => [off]
  | .unexpectedChar _ off => [off]
  | .unclosedString | .badEscape | .shortEscape | .intOverflow | .badReal | .ctrlChar | .unclosedRE
  | .parseInt _ | .parseFloat _ => []

/-- The offsets that a parse error mentions. -/
def PErr.offsets : PErr → List Nat
  | .lex e => e.offsets
  | .expectedErr _ off e => off :: e.offsets
  | .expected _ off _ => [off]
  | .unexpectedLexeme lx => match lx.err with
    | some e => e.offsets
    | none => []
  | .unexpectedAt _ off => [off]
  | .unexpectedTokenAt _ off => [off]
  | .missingOperator off _ => [off]
  | .badRegexp _ off => [off]
  | .inUnion _ | .notIdentifier _ | .notField | .unexpectedTerm _ => []

/-- A bound that is a literal, or left out. -/
def Bound.Literal (b : Option Bound) : Prop := ∀ e, b ≠ some (.expr e)

/-- A slice without expressions. -/
def Slice.Literal (s : Slice) : Prop := Bound.Literal s.start ∧ Bound.Literal s.stop ∧ Bound.Literal s.stride

/-- A path none of whose slices has an expression for a bound. -/
def Path.LiteralSlices (p : Path) : Prop := ∀ s ∈ p, ∀ sl, Val.slice sl ∈ s.args → sl.Literal

/-- A slice of the path has this stride. -/
def Path.HasStride (p : Path) (n : Int64) : Prop :=
  ∃ s ∈ p, ∃ start stop, Val.slice ⟨start, stop, some (.int n)⟩ ∈ s.args

/-- No array of the document is so long, and no stride of the path so large, that adding the stride to
an index of the array exceeds an int64. -/
def StridesFit (root : V) (p : Path) : Prop :=
  ∀ n, p.HasStride n → ∀ xs, Desc root (.arr xs) → (xs.length : Int) + n.toInt ≤ 2 ^ 63

end JP
