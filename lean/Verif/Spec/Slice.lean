import Verif.Model.Value
/-!
The rule for slices `[start:stop:stride]`, as in Python: negative bounds count from the end, bounds are
clamped to the array, an absent bound is the end from which (or to which) the stride leads, and the
elements selected are those whose index lies between the bounds, at a whole number of strides from the
start, in the direction of the stride.  All arithmetic is on unbounded integers.
-/
namespace JP.Spec

/-- A bound counted from the end if negative, and clamped. -/
def sliceBound (len stride b : Int) : Int :=
  let b := if b < 0 then b + len else b
  if stride < 0 then max (-1) (min b (len - 1)) else max 0 (min b len)

/-- Where the slice starts. -/
def sliceStart (len stride : Int) : Option Int → Int
  | none => if stride < 0 then len - 1 else 0
  | some b => sliceBound len stride b

/-- Where the slice stops (exclusive). -/
def sliceStop (len stride : Int) : Option Int → Int
  | none => if stride < 0 then -1 else len
  | some b => sliceBound len stride b

/-- The indices selected, in order. -/
def sliceIndices (len : Nat) (start stop : Option Int) (stride : Int) : List Nat :=
  let lo := sliceStart len stride start
  let hi := sliceStop len stride stop
  if 0 < stride then (List.range len).filter fun i => lo ≤ i ∧ (i : Int) < hi ∧ stride ∣ (i - lo)
  else if stride < 0 then (List.range len).reverse.filter fun i => hi < i ∧ (i : Int) ≤ lo ∧ stride ∣ (lo - i)
  else []

/-- The elements selected, in order. -/
def sliceOf {α : Type} (xs : List α) (start stop : Option Int) (stride : Int) : List α :=
  (sliceIndices xs.length start stop stride).filterMap (xs[·]?)

end JP.Spec
