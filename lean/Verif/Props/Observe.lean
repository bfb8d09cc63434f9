import Verif.Proof.Ops
import Verif.Proof.KRfl
import Verif.Proof.Select
import Verif.Props.Ex
/-!
How the value of an operator is seen from outside: the operators in a filter, from the text of the path to
the result of `Eval`.  (C14 says in general what a filter does with the value of its expression.)
-/
namespace JP
open Spec

variable (env : Env) (oracle : Oracle)

/-- The binary operators and how they are written. -/
def Spec.infixOps : List (Op × Bytes) :=
  [(.or, b! "||"), (.and, b! "&&"), (.eq, b! "=="), (.ne, b! "!="), (.lt, b! "<"), (.le, b! "<="), (.gt, b! ">"), (.ge, b! ">="),
   (.match_, b! "=~"), (.in_, b! "in"), (.nin, b! "nin"), (.add, b! "+"), (.sub, b! "-"), (.mul, b! "*"), (.div, b! "/"), (.mod, b! "%")]

/-- The tree of the filter `[?(@[0] op @[1])]`. -/
private def pairTest (op : Op) : Path :=
  [⟨.filter, [.expr (.inner op [.inner .index [.current, .int 0], .inner .index [.current, .int 1]])]⟩]

private theorem pairTest_compiled (op : Op) (txt : Bytes) (h : (op, txt) ∈ infixOps) :
    ∃ p, Compile env (b! "$[?(@[0] " ++ txt ++ b! " @[1])]") = .ok p ∧ IsCompiled env p (pairTest op) := by
  simp only [infixOps, List.mem_cons, Prod.mk.injEq, List.not_mem_nil, or_false] at h
  rcases h with ⟨rfl, rfl⟩ | ⟨rfl, rfl⟩ | ⟨rfl, rfl⟩ | ⟨rfl, rfl⟩ | ⟨rfl, rfl⟩ | ⟨rfl, rfl⟩ | ⟨rfl, rfl⟩ | ⟨rfl, rfl⟩ |
    ⟨rfl, rfl⟩ | ⟨rfl, rfl⟩ | ⟨rfl, rfl⟩ | ⟨rfl, rfl⟩ | ⟨rfl, rfl⟩ | ⟨rfl, rfl⟩ | ⟨rfl, rfl⟩ | ⟨rfl, rfl⟩ <;>
  exact compiled_of_parse (by krfl) (by simp)

/-- `$[?(@[0] op @[1])]` applied to `[[a, b]]` selects the pair exactly when `a op b` yields a truthy value,
and is an error exactly when `a op b` is. -/
theorem operators_observed (op : Op) (txt : Bytes) (h : (op, txt) ∈ infixOps) :
    ∃ p, Compile env (b! "$[?(@[0] " ++ txt ++ b! " @[1])]") = .ok p ∧ ∀ a b : V,
      (∀ r, Yields2 env op a b r →
        Eval env oracle p (.arr [.arr [a, b]]) = some (.ok (some (if truthy env r then [.arr [a, b]] else [])))) ∧
      (∀ x, Raises2 env op a b x → Eval env oracle p (.arr [.arr [a, b]]) = some (.err x)) := by
  obtain ⟨p, ht, hc⟩ := pairTest_compiled env op txt h
  refine ⟨p, ht, fun a b => ?_⟩
  have key : ∀ res : Res RErr (V × Nat),
      evalExpr env oracle (.arr [.arr [a, b]]) (.arr [a, b])
        (.inner op [.inner .index [.current, .int 0], .inner .index [.current, .int 1]]) 1 = res →
      evalPath env oracle (.arr [.arr [a, b]]) (pairTest op) =
        (res >>= fun v => .ok (some (if truthy env v.1 then [.arr [a, b]] else []))) := by
    rintro res rfl
    simp only [evalPath, pairTest, evalSteps, evalStep, loop]
    show ((((evalExpr env oracle (.arr [.arr [a, b]]) (.arr [a, b])
                (.inner op [.inner .index [.current, .int 0], .inner .index [.current, .int 1]]) 1 >>=
              fun x => Res.ok ([x.1], x.2)) >>=
            fun x => visit env (oracle x.2) .filter (.arr [a, b]) x.1 (some []) >>= fun out => Res.ok (out, x.2)) >>= fun x => Res.ok x) >>=
          fun x => Res.ok (some x.1.elems)) = _
    cases evalExpr env oracle (.arr [.arr [a, b]]) (.arr [a, b])
      (.inner op [.inner .index [.current, .int 0], .inner .index [.current, .int 1]]) 1 with
    | ok v =>
      simp only [Res.bind_ok, visit, truthy]
      split <;> (rename_i h; simp only [h]; rfl)
    | err | panic | stuck => rfl
  rw [hc.eval oracle]
  have h0 : evalExpr env oracle (.arr [.arr [a, b]]) (.arr [a, b]) (.inner .index [.current, .int 0]) 1 = .ok (a, 1) := rfl
  have h1 : evalExpr env oracle (.arr [.arr [a, b]]) (.arr [a, b]) (.inner .index [.current, .int 1]) 1 = .ok (b, 1) := rfl
  constructor
  · intro r hr
    rw [key _ (hr _ _ _ _ _ _ _ _ h0 h1)]; rfl
  · intro x hx
    rw [key _ (hx _ _ _ _ _ _ _ _ h0 h1)]; rfl

example : (Op.lt, b! "<") ∈ infixOps := by decide

end JP
