import Verif.Spec.Lexical
/-!
Texts put together from the texts of their parts.
-/
namespace JP.Spec

/-! ## Operators -/

/-- The binary operators as they are written. -/
inductive OpText : Bytes → Op → Prop
  | or : OpText (b! "||") .or
  | and : OpText (b! "&&") .and
  | eq : OpText (b! "==") .eq
  | ne : OpText (b! "!=") .ne
  | lt : OpText (b! "<") .lt
  | le : OpText (b! "<=") .le
  | gt : OpText (b! ">") .gt
  | ge : OpText (b! ">=") .ge
  | match_ : OpText (b! "=~") .match_
  | tilde : OpText (b! "~") .match_
  | in_ : OpText (b! "in") .in_
  | nin : OpText (b! "nin") .nin
  | add : OpText (b! "+") .add
  | sub : OpText (b! "-") .sub
  | mul : OpText (b! "*") .mul
  | div : OpText (b! "/") .div
  | mod : OpText (b! "%") .mod

/-- Their priorities: `||` is lowest, then `&&`, the equalities, the comparisons, sums, products. -/
def prio : Op → Nat
  | .or => 0
  | .and => 1
  | .eq | .ne => 2
  | .lt | .le | .gt | .ge | .match_ | .in_ | .nin => 3
  | .add | .sub => 4
  | _ => 5

/-- The text of an operand that needs no parentheses. -/
def PrimaryText (env : Env) (w : Bytes) (e : Expr) : Prop := ∃ ts, Written env.parseFloat ts w ∧ GPrimary env.reValid ts e

/-! ## White space -/

/-- The two texts are the same tokens, spelled the same, with white space between them; where the first has
some before a token, the second has some too. -/
inductive Respaced (pf : Bytes → Option F64) : List Token → Bytes → Bytes → Prop
  | nil (g g') : White g → White g' → Respaced pf [] g g'
  | cons (t ts g g' w next next') : Gap t g → Gap t g' → (g ≠ [] → g' ≠ []) → Word pf t w next → Respaced pf ts next next' →
      Respaced pf (t :: ts) (g ++ (w ++ next)) (g' ++ (w ++ next'))

/-! ## Subscripts -/

/-- The text of an element that may be in a union. -/
def ElemText (env : Env) (w : Bytes) (v : Val) : Prop := ∃ ts, Written env.parseFloat ts w ∧ GElem env.reValid ts v

/-- What may be in a subscript only by itself: `"*" | filter | expr`. -/
inductive GAlone (valid : Bytes → Bool) : List Token → Prop
  | wild : GAlone valid [.p (c! '*')]
  | filter (ts e) : GParen valid ts e → GAlone valid (.path (.plain .filter) :: ts)
  | expr (ts e) : GParen valid ts e → GAlone valid (.p (c! '(') :: ts)

/-- The text of that. -/
def AloneText (env : Env) (w : Bytes) : Prop := ∃ ts, Written env.parseFloat ts w ∧ GAlone env.reValid ts

/-- Texts with commas between them. -/
def commas : List Bytes → Bytes
  | [] => []
  | [w] => w
  | w :: ws => w ++ c! ',' :: commas ws

end JP.Spec
