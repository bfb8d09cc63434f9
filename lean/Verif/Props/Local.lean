import Verif.Proof.LocalParse
import Verif.Proof.KRfl
import Verif.Props.Ex
/-!
How far a text is read before an error in it is reported: C69.
-/
namespace JP

variable (env : Env)

/-! ### C69 An error is reported where the text goes wrong -/

/-- The full statement: the error that is reported at the offset `k` is the error of every text that begins with
the same `k + 2` bytes. -/
def LocalRule : Prop :=
  ∀ (text : Bytes) (e : PErr), Compile env text = .err (.parse e) → ∀ k ∈ e.offsets, ∀ text' : Bytes,
    text'.take (k + 2) = text.take (k + 2) → Compile env text' = .err (.parse e)

/-- It is false: the error in `$[-` is reported at the bracket, as the reader steps back at the end of the text
over a byte that it has read; but `$[-1]` is a path. -/
theorem C69_end_fails : ¬ LocalRule env := by
  intro h
  have := h (b! "$[-") (.lex (.unexpectedChar (some (c! '-')) 1)) rfl 1 (by simp [PErr.offsets, LexErr.offsets]) (b! "$[-1]") rfl
  cases this

/-- Nor does it hold of texts that go on after the `k + 2` bytes: a regular expression that is not valid is reported
where it begins. -/
theorem C69_regexp_fails : ∃ (env : Env) (text text' : Bytes) (e : PErr) (k : Nat) (p : JSONPath),
    Compile env text = .err (.parse e) ∧ k ∈ e.offsets ∧ k + 2 < text.length ∧ text'.take (k + 2) = text.take (k + 2) ∧
    Compile env text' = .ok p := by
  refine ⟨{ Ex.env with reValid := fun s => s == b! "ab" }, b! "$[?(@=~/a(/)]", b! "$[?(@=~/ab/)]", .badRegexp (b! "a(") 7, 7, ?_⟩
  exact ⟨_, by krfl, by simp [PErr.offsets], by decide, rfl, rfl⟩

/-- Apart from these two cases, the parser has read no more than `k + 2` bytes of the text when it reports an error at
the offset `k`: whatever follows them, the error is the same. -/
theorem C69_local_partial (text : Bytes) (e : PErr) (h : Compile env text = .err (.parse e)) (hr : ∀ p o, e ≠ .badRegexp p o)
    (k : Nat) (hk : k ∈ e.offsets) (hl : text.length ≠ k + 2) (text' : Bytes) (ht : text'.take (k + 2) = text.take (k + 2)) :
    Compile env text' = .err (.parse e) := by
  rcases same_beginning hl ht with rfl | ⟨c, x, y, rfl, rfl, hx, hc⟩
  · exact h
  · exact (compile_parse env).2 (parsePath_local hx ((compile_parse env).1 h) hr hk hc)

/-- After `$[1 2]` nothing makes a path. -/
example := C69_local_partial Ex.env (b! "$[1 2].c") (.expected (.ch (c! ']')) 4 .int) rfl (by simp) 4 (by simp [PErr.offsets]) (by decide)
  (b! "$[1 2]..*") rfl

/-- So no text that begins like this is a path. -/
theorem C69_no_path_partial (text : Bytes) (e : PErr) (h : Compile env text = .err (.parse e)) (hr : ∀ p o, e ≠ .badRegexp p o)
    (k : Nat) (hk : k ∈ e.offsets) (hl : k + 2 < text.length) (more : Bytes) (p : JSONPath) :
    Compile env (text.take (k + 2) ++ more) ≠ .ok p := by
  rw [C69_local_partial env text e h hr k hk (by omega) _ (by rw [List.take_append_of_le_length (by rw [List.length_take]; omega), List.take_take]; simp)]
  simp

example := C69_no_path_partial Ex.env (b! "$[1,%].c") (.lex (.unexpectedChar (some (c! '%')) 4)) rfl (by simp) 4
  (by simp [PErr.offsets, LexErr.offsets]) (by decide) (b! "..[0]")

/-- The same of expressions. -/
theorem C69_expression_partial (text : Bytes) (e : PErr) (h : parseScriptExpression env text = .err e) (hr : ∀ p o, e ≠ .badRegexp p o)
    (k : Nat) (hk : k ∈ e.offsets) (hl : text.length ≠ k + 2) (text' : Bytes) (ht : text'.take (k + 2) = text.take (k + 2)) :
    parseScriptExpression env text' = .err e := by
  rcases same_beginning hl ht with rfl | ⟨c, x, y, rfl, rfl, hx, hc⟩
  · exact h
  · exact parseScriptExpression_local hx h hr hk hc

example := C69_expression_partial Ex.env (b! "1 + f(2 3) + 4") (.expected (.ch (c! ')')) 8 .int) rfl (by simp) 8 (by simp [PErr.offsets])
  (by decide) (b! "1 + f(2 3)") rfl

end JP
