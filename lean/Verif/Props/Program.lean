import Verif.Proof.Program
import Verif.Props.Ex
import Verif.Spec.Eval
/-!
C87: the shape and size of programs.
-/
namespace JP
open Spec

variable (env : Env)

/-- The full statement: a program is a sequence of orders and loops, without loops in loops; and three of the operators
do not occur. -/
def ShapeRule : Prop := ∀ (text : Bytes) (p : JSONPath), Compile env text = .ok p → OrdersAndLoops 0 p.prog.orders

/-- It is false for a path of just over 3 MB. -/
theorem C87_shape_fails : ¬ ShapeRule env := by
  intro h
  obtain ⟨p, h1, _⟩ := Compile_descending env (2 ^ 20)
  exact descending_shape env _ rfl p h1 (h _ p h1)

/-- It holds for programs of fewer than 2^22 orders (with more of them a jump need not be where it should be). -/
theorem C87_shape_partial (text : Bytes) (p : JSONPath) (h : Compile env text = .ok p) (hl : p.prog.orders.length < 2 ^ 22) :
    OrdersAndLoops 0 p.prog.orders := by
  obtain ⟨path, _, hw, hc, _⟩ := Compile_ok h
  exact compile_loops hw hc hl

example := C87_shape_partial Ex.env (b! "$..a[?(@>1)]") _ rfl (by decide)

/-- The unused operators do not occur in any program. -/
theorem C87_unused (text : Bytes) (p : JSONPath) (h : Compile env text = .ok p) (o : Order) (ho : o ∈ p.prog.orders) (op : Op)
    (hop : Does o op) : op ≠ .slice ∧ op ≠ .exp ∧ op ≠ .error := by
  obtain ⟨path, _, hw, hc, _⟩ := Compile_ok h
  obtain ⟨op', h1, h2⟩ := compile_useful hw hc o ho
  cases h1.symm.trans hop
  refine ⟨?_, ?_, ?_⟩ <;> rintro rfl <;> exact absurd h2 (by decide)

example : ∀ p, Compile Ex.env (b! "$[1:2,(3):]") = .ok p → ∀ o ∈ p.prog.orders, ¬ Does o .slice :=
  fun p h o ho hd => (C87_unused Ex.env _ p h o ho _ hd).1 rfl

/-- A path of `n` bytes has a program of at most `4(n-1)/3` orders, and not more constants. -/
theorem C87_size (text : Bytes) (p : JSONPath) (h : Compile env text = .ok p) :
    3 * p.prog.orders.length ≤ 4 * (text.length - 1) ∧ p.prog.vals.length ≤ p.prog.orders.length := by
  obtain ⟨path, hp, hw, hc, _, h1, _⟩ := Compile_ok h
  have := parsePath_size hp
  have hz := codePath_sz path hw ⟨[], []⟩
  rw [show codePath path ⟨[], []⟩ = .ok p.prog from hc] at hz
  have hv := hz.vals
  simp at hv
  omega

/-- `$..a..a…` has just as many. -/
theorem C87_size_exact (k : Nat) : ∃ p, Compile env (descending k) = .ok p ∧ 3 * p.prog.orders.length = 4 * ((descending k).length - 1) := by
  obtain ⟨p, h1, h2⟩ := Compile_descending env k
  exact ⟨p, h1, by rw [h2, length_descending]; omega⟩

/-- So every path of at most 3 MB has a program of fewer than 2^22 orders: what is proved for these holds for it. -/
theorem C87_limit (text : Bytes) (q : Path) (h : parsePath env text = .ok q) (hl : text.length ≤ 3 * 2 ^ 20) :
    ∃ p, Compile env text = .ok p ∧ IsCompiled env p q := by
  have hs := parsePath_size h
  have hw : q.WF := by
    rcases parsePath_ok env text with ⟨q', h', hw, _⟩ | ⟨e, he, _⟩
    · rw [h] at h'; cases h'; exact hw
    · rw [h] at he; cases he
  rcases compile_sz q hw with ⟨prog, hc, hl'⟩ | ⟨_, hbig⟩
  · have hp : Compile env text = .ok ⟨text, prog⟩ := by
      unfold Compile
      rw [h]
      simp only
      rw [hc]
    exact ⟨_, hp, ⟨text, hp, h⟩, by show prog.orders.length < _; omega⟩
  · unfold indexTop at hbig
    omega

example : ∃ p, Compile Ex.env (b! "$..a") = .ok p ∧ IsCompiled Ex.env p [⟨.nestMember, [.name (b! "a")]⟩] :=
  C87_limit Ex.env _ _ rfl (by decide)

/-- One byte more is too much: that path compiles to a program that panics. -/
theorem C87_limit_exact (oracle : Oracle) : ∃ text p, text.length = 3 * 2 ^ 20 + 1 ∧ Compile env text = .ok p ∧
    Eval env oracle p (.int 5) = some (.panic "branch pc out of range") := by
  obtain ⟨p, h1, _⟩ := Compile_descending env (2 ^ 20)
  exact ⟨_, p, length_descending _, h1, descending_panics env oracle _ rfl p h1⟩

end JP
