import Verif.Proof.Leaves
import Verif.Proof.KRfl
import Verif.Props.Ex
import Verif.Props.Grammar
/-!
The texts that `String` gives, read again: C62.

`Spec.PrintedLeaf` tells for which expressions this works.
-/
namespace JP
open Spec

variable (env : Env)

/-! ### C62 What `String` prints can be read -/

/-- The full statement: the text of every expression without operands is read as that expression. -/
def LeafTextRule : Prop :=
  ∀ e : Expr, Tree env true e → (∀ op es, e ≠ .inner op es) → parseScriptExpression env (e.text env) = .ok e

/-- It holds for integers, numbers printed with a point, `true`, `false`, `null`, names, `@`, `$`, and for strings
of characters that are printed as themselves or with an escape that literals have. -/
theorem C62_leaf_partial (e : Expr) (h : PrintedLeaf env e) : parseScriptExpression env (e.text env) = .ok e :=
  leaf_back h

example := C62_leaf_partial Ex.env (.str [0xC3, 0xA9, 10, 34]) (.str [0xE9, 10, 34] (by simp [PrintsPlain]; decide))

/-- All these are trees of expressions. -/
theorem C62_leaf_tree (e : Expr) (h : PrintedLeaf env e) : Tree env true e ∧ ∀ op es, e ≠ .inner op es := by
  cases h with
  | int n h => exact ⟨.int n h, by simp⟩
  | float f h1 h2 => exact ⟨.float f h1 h2, by simp⟩
  | str rs h => exact ⟨.str _, by simp⟩
  | bool b => exact ⟨.bool b, by simp⟩
  | null => exact ⟨.null, by simp⟩
  | name s h h1 h2 h3 => exact ⟨.name s h h1 h2 h3, by simp⟩
  | current => exact ⟨.current, by simp⟩
  | root => exact ⟨.root, by simp⟩

example := C62_leaf_tree Ex.env (.int 7) (.int _ (by decide))

/-- The floating-point number 1. -/
def Ex.one : F64 := ⟨0x3FF0000000000000⟩

/-- It is false for whole numbers: 1.0 is printed `1`, which is an integer. -/
theorem C62_whole_fails : parseScriptExpression env ((Expr.float Ex.one).text env) = .ok (.int 1) ∧
    Tree env true (.float Ex.one) ∧ ¬ LeafTextRule env := by
  have h1 : parseScriptExpression env ((Expr.float Ex.one).text env) = .ok (.int 1) := by krfl
  have h2 : Tree env true (.float Ex.one) := .float _ (by unfold F64.Finite; decide +kernel) (by decide +kernel)
  refine ⟨h1, h2, fun h => ?_⟩
  have := h _ h2 (by simp)
  rw [h1] at this
  simp at this

/-- It is false for the string of the character 7: `"\a"` is no literal of paths. -/
theorem C62_string_fails : ¬ ∃ e, parseScriptExpression env ((Expr.str [7]).text env) = .ok e := by
  have h : (match parseScriptExpression env ((Expr.str [7]).text env) with | .ok _ => true | _ => false) = false := by krfl
  rintro ⟨e, he⟩
  rw [he] at h
  cases h

/-- It is false for regular expressions: `/x/` is printed `Regexp("x")`, which is a call. -/
theorem C62_regexp_fails : parseScriptExpression env ((Expr.re (b! "x")).text env) = .ok (.inner .call [.name (b! "Regexp"), .str (b! "x")]) := by
  krfl

/-- Any other expression is printed as the name of its operator, without the operands. -/
theorem C62_inner (op : Op) (es : List Expr) : parseScriptExpression env ((Expr.inner op es).text env) = .ok (.name op.name) := by
  have h : Tree env true (.name op.name) := by
    refine .name _ ?_ (by cases op <;> decide +kernel) (by cases op <;> decide +kernel) (by cases op <;> decide +kernel)
    cases op <;> exact ⟨_, _, rfl, by simp [Letter], by simp [All, LetterDigit, Letter, Digit]⟩
  have := C30_write_expr_partial env _ h
  rwa [writeExpr] at this

/-- The full statement for what stands in brackets: the text of every name, integer and string, put in brackets,
and that of every slice is read as that value. -/
def OperandTextRule : Prop :=
  (∀ s, PathIdent s → parsePath env (b! "$[" ++ ((PVal.name s).text env ++ b! "]")) = .ok [⟨.select, [.name s]⟩]) ∧
  (∀ n, TreeInt true n → parsePath env (b! "$[" ++ ((PVal.int n).text env ++ b! "]")) = .ok [⟨.select, [.int n]⟩]) ∧
  (∀ s, parsePath env (b! "$[" ++ ((PVal.str s).text env ++ b! "]")) = .ok [⟨.select, [.str s]⟩]) ∧
  (∀ s, TreeElem env true (.slice s) → parsePath env (b! "$" ++ (PVal.slice s).text env) = .ok [⟨.select, [.slice s]⟩])

theorem C62_name (s : Bytes) (h : PathIdent s) : parsePath env (b! "$[" ++ ((PVal.name s).text env ++ b! "]")) = .ok [⟨.select, [.name s]⟩] := by
  have := C30_write_partial env [⟨.select, [.name s]⟩] (by intro x hx; simp at hx; subst hx; exact .select _ (.elem _ (.name s h)))
  simpa [writePath, writeStep, writeVal, bracket, PVal.text] using this

example := C62_name Ex.env (b! "a-b") ⟨_, _, rfl, by simp [Letter], by simp [All, LetterDigitDash, Letter]⟩

theorem C62_int (n : Int64) (h : TreeInt true n) : parsePath env (b! "$[" ++ ((PVal.int n).text env ++ b! "]")) = .ok [⟨.select, [.int n]⟩] := by
  have := C30_write_partial env [⟨.select, [.int n]⟩] (by intro x hx; simp at hx; subst hx; exact .select _ (.elem _ (.int n h)))
  rw [PVal.text, intToBytes_write]
  simpa [writePath, writeStep, writeVal, bracket] using this

example := C62_int Ex.env (-7) (fun _ => by decide)

/-- Strings, with the exceptions above. -/
theorem C62_str_partial (rs : List Nat) (h : ∀ r ∈ rs, PrintsPlain env r) :
    parsePath env (b! "$[" ++ ((PVal.str (rs.flatMap utf8)).text env ++ b! "]")) = .ok [⟨.select, [.str (rs.flatMap utf8)]⟩] :=
  (lit_read ((quotedBody_denotes (env := env) rs _ h (Nat.le_refl _)).body.lit (.inl rfl))).1

example := C62_str_partial Ex.env [0xE9, 10, 34] (by simp [PrintsPlain]; decide)

/-- A bound that is an integer, or missing. -/
def Spec.IntBound (b : Option Bound) : Prop := ∀ x ∈ b, ∃ n, x = .int n ∧ TreeInt true n

/-- Slices without expressions. -/
theorem C62_slice_partial (a b c : Option Bound) (ha : IntBound a) (hb : IntBound b) (hc : IntBound c) :
    parsePath env (b! "$" ++ (PVal.slice ⟨a, b, c⟩).text env) = .ok [⟨.select, [.slice ⟨a, b, c⟩]⟩] := by
  have key : ∀ {b : Option Bound}, IntBound b → ∀ x ∈ b, TreeBound env true x := by
    intro b h x hx
    obtain ⟨n, rfl, hn⟩ := h x hx
    exact .int n hn
  have := C30_write_partial env [⟨.select, [.slice ⟨a, b, c⟩]⟩] (by
    intro x hx; simp at hx; subst hx; exact .select _ (.elem _ (.slice a b c (key ha) (key hb) (key hc))))
  have txt : (PVal.slice ⟨a, b, c⟩).text env = bracket (writeVal (.slice ⟨a, b, c⟩)) := by
    have form : ∀ {b : Option Bound}, IntBound b → b = none ∨ ∃ n, b = some (.int n) := by
      intro b h
      cases b with
      | none => exact .inl rfl
      | some x =>
        obtain ⟨n, rfl, -⟩ := h x rfl
        exact .inr ⟨n, rfl⟩
    rcases form ha with rfl | ⟨i, rfl⟩ <;> rcases form hb with rfl | ⟨j, rfl⟩ <;> rcases form hc with rfl | ⟨k, rfl⟩ <;>
      simp [PVal.text, Slice.text, bracket, writeVal, writeBound, Bound.text, intToBytes_write]
  rw [txt]
  simpa [writePath, writeStep] using this

example := C62_slice_partial Ex.env (some (.int (-3))) none (some (.int 2)) (by simp [IntBound, TreeInt]) (by simp [IntBound])
  (by simp [IntBound, TreeInt])

/-- Slices with expressions are printed without the parentheses these need. -/
theorem C62_operand_fails : ¬ OperandTextRule env := by
  rintro ⟨-, -, -, h⟩
  have := h ⟨some (.expr (.current)), none, none⟩ (.slice _ _ _ (by simp; exact .expr _ .current) (by simp) (by simp))
  have hx : (match parsePath env (b! "$" ++ (PVal.slice ⟨some (.expr (.current)), none, none⟩).text env) with | .ok _ => true | _ => false) = false := by
    krfl
  rw [this] at hx
  cases hx

/-- `1.5e+20` has a point, and so has `0.001`; `é` and a newline are among the characters. -/
example : PrintedLeaf env (.float ⟨0x44204284F98E59A0⟩) := .float _ (by unfold F64.Finite; decide +kernel) (by decide +kernel) (by decide +kernel)
example : PrintedLeaf env (.str [0xC3, 0xA9, 10, 34]) := .str [0xE9, 10, 34] (by simp [PrintsPlain]; decide)
example : IntBound (some (.int (-3))) := by simp [IntBound, TreeInt]

end JP
