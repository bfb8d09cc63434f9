import Verif.Proof.CodeTime
import Verif.Proof.KRfl
import Verif.Props.Ex
/-!
C102: how long compiling takes.
-/
namespace JP

/-- The parsers with a clock are the parsers, and so it is with `Compile`. -/
theorem C102_same (env : Env) (text : Bytes) :
    (tParsePath env text).1 = parsePath env text ∧ (tScriptExpression env text).1 = parseScriptExpression env text ∧
      (tCompile env text).1 = Compile env text :=
  ⟨(tParsePath_runs env text).1, (tScriptExpression_runs env text).1, (tCompile_runs env text).1⟩

example : (tParsePath Ex.env (b! "$.a[?(@.b>1)]")).1 = parsePath Ex.env (b! "$.a[?(@.b>1)]") := (C102_same _ _).1

/-- Parsing a path takes at most forty steps for each byte of its text and fifteen more, whether it is accepted or not. -/
theorem C102_path (env : Env) (text : Bytes) : (tParsePath env text).2 ≤ 40 * text.length + 15 := (tParsePath_runs env text).2

example : (tParsePath Ex.env (b! "$.a[?(@.b>1)]")).2 = 71 := by krfl
example : (tParsePath Ex.env (b! "$.a[?(((((1")).2 = 54 := by krfl

/-- So it is with expressions. -/
theorem C102_expr (env : Env) (text : Bytes) : (tScriptExpression env text).2 ≤ 40 * text.length + 12 := (tScriptExpression_runs env text).2

example : (tScriptExpression Ex.env (b! "1+2*3==f(4,[5])")).2 = 135 := by krfl

/-- `Compile` takes at most fifty-one steps for each byte of the text and seventeen more. -/
theorem C102_compile (env : Env) (text : Bytes) : (tCompile env text).2 ≤ 51 * text.length + 17 := (tCompile_runs env text).2

example : (tCompile Ex.env (b! "$.a[?(@.b>1)]")).2 = 117 := by krfl

end JP
