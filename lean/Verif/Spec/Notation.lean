import Verif.Spec.Select
/-!
Different ways to write the same step.
-/
namespace JP.Spec

/-- Two subscripts that mean the same. -/
inductive SameKey : Val → Val → Prop
  | refl (a) : SameKey a a
  | symm {a b} : SameKey a b → SameKey b a
  | trans {a b c} : SameKey a b → SameKey b c → SameKey a c
  /-- `['a']` and `[a]` -/
  | bare (s) : SameKey (.str s) (.name s)
  /-- `['a']` and `[('a')]` -/
  | str (s) : SameKey (.str s) (.expr (.str s))
  /-- `[1]` and `[(1)]` -/
  | int (n) : SameKey (.int n) (.expr (.int n))
  /-- `[a:b]` and `[a:b:1]` -/
  | stride (a b) : SameKey (.slice ⟨a, b, none⟩) (.slice ⟨a, b, some (.int 1)⟩)
  /-- `[:b]` and `[0:b]`, `[:b:c]` and `[0:b:c]` if `c` is positive -/
  | start (b c) : (∀ x, c = some x → ∃ n : Int64, x = .int n ∧ 0 < n.toInt) →
      SameKey (.slice ⟨none, b, c⟩) (.slice ⟨some (.int 0), b, c⟩)

/-- Two steps that mean the same. -/
inductive SameStep : Step → Step → Prop
  | refl (s) : SameStep s s
  | symm {s t} : SameStep s t → SameStep t s
  | trans {s t u} : SameStep s t → SameStep t u → SameStep s u
  | select {a b} : SameKey a b → SameStep ⟨.select, [a]⟩ ⟨.select, [b]⟩
  | nestSelect {a b} : SameKey a b → SameStep ⟨.nestSelect, [a]⟩ ⟨.nestSelect, [b]⟩
  | union {as bs} : All2 SameKey as bs → SameStep ⟨.union, as⟩ ⟨.union, bs⟩
  | nestUnion {as bs} : All2 SameKey as bs → SameStep ⟨.nestUnion, as⟩ ⟨.nestUnion, bs⟩
  /-- `.a` and `[a]` -/
  | name (s) : SameStep ⟨.member, [.name s]⟩ ⟨.select, [.name s]⟩
  /-- `..a` and `..[a]` -/
  | nestName (s) : SameStep ⟨.nestMember, [.name s]⟩ ⟨.nestSelect, [.name s]⟩
  /-- `.1` and `[1]` -/
  | index (n : Int64) : 0 ≤ n.toInt → SameStep ⟨.member, [.int n]⟩ ⟨.select, [.int n]⟩
  /-- `..1` and `..[1]` -/
  | nestIndex (n : Int64) : 0 ≤ n.toInt → SameStep ⟨.nestMember, [.int n]⟩ ⟨.nestSelect, [.int n]⟩
  /-- `.a` and `.('a')` -/
  | nameExpr (s) : SameStep ⟨.member, [.name s]⟩ ⟨.member, [.expr (.str s)]⟩
  /-- `..a` and `..('a')` -/
  | nestNameExpr (s) : SameStep ⟨.nestMember, [.name s]⟩ ⟨.nestMember, [.expr (.str s)]⟩

end JP.Spec
