import Verif.Model.Lex
/-!
What makes an expression deep.
-/
namespace JP.Spec

/-- The number of bytes of a text that may begin something nested: brackets and the signs of `unary`. -/
def openers (text : Bytes) : Nat := text.countP fun c => decide (c ∈ b! "([-!")

/-- The number 1 in `n` pairs of parentheses. -/
def parens (n : Nat) : Bytes := List.replicate n (c! '(') ++ (c! '1' :: List.replicate n (c! ')'))

end JP.Spec
