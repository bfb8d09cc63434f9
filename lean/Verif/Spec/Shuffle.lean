import Verif.Spec.RfcText
/-!
Documents that differ in the order of the elements of their arrays only.
-/
namespace JP.Spec

/-- The second document has the elements of the arrays of the first, at every level, in some other order. -/
inductive Shuffled : V → V → Prop
  | same (v) : Shuffled v v
  | arr {xs zs ys : List V} : All2 Shuffled xs zs → zs.Perm ys → Shuffled (.arr xs) (.arr ys)
  | obj {ms ns : List (Bytes × V)} : ms.map Prod.fst = ns.map Prod.fst → All2 Shuffled (ms.map Prod.snd) (ns.map Prod.snd) →
      Shuffled (.obj ms) (.obj ns)

/-- The lists have the same values in some order, but for the order of elements within each. -/
def SameBag (l l' : List V) : Prop := ∃ m, All2 Shuffled l m ∧ m.Perm l'

/-- The selectors are names, or are `*`: nothing counts elements. -/
def NoCounting (q : Rfc.Query) : Prop := ∀ seg ∈ q, ∀ s ∈ seg.sels, (∃ n, s = .name n) ∨ s = .wild

end JP.Spec
