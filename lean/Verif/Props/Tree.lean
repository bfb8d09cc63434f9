import Verif.Proof.Tree
import Verif.Props.Grammar
import Verif.Props.Ex
import Verif.Proof.KRfl
/-!
The trees that `paths.ParsePath` and `paths.ParseScriptExpression` return, through their public methods: C72.  As
stated the property says that `Kid(c)` gives child `c`, or nothing if there is none; that `IsLeaf` tells the nodes
without children from the others; and that steps with the same text do the same.  The code meets neither the first, for
negative numbers, nor the last, since the text does not show expressions.
-/
namespace JP
open Spec

variable (env : Env) (oracle : Oracle)

/-! ### C72 Trees -/

/-- `Kid` with a negative number fails, instead of saying that there is no such child. -/
theorem C72_kid_fails (kids : List Expr) (hk : kids.length < 2 ^ 63) (c : Int64) (hc : c.toInt < 0) : ∃ m, Expr.kid kids c = .panic m := by
  have h1 : ¬ Int64.ofNat kids.length ≤ c := by
    rw [Int64.le_iff_toInt_le, Int64.toInt_ofNat_of_lt hk]; omega
  have h2 : c < 0 := by rw [Int64.lt_iff_toInt_lt]; exact hc
  exact ⟨_, by unfold Expr.kid; rw [if_neg h1, if_pos h2]⟩

example := C72_kid_fails [.current, .int 1] (by decide) (-1) (by decide)

/-- `Kid` with any other number gives that child, or nothing if there are not so many. -/
theorem C72_kid_partial (kids : List Expr) (hk : kids.length < 2 ^ 63) (c : Int64) (hc : 0 ≤ c.toInt) :
    Expr.kid kids c = .ok (kids[c.toInt.toNat]?) := by
  unfold Expr.kid
  by_cases h1 : Int64.ofNat kids.length ≤ c
  · rw [if_pos h1]
    rw [Int64.le_iff_toInt_le, Int64.toInt_ofNat_of_lt hk] at h1
    rw [List.getElem?_eq_none (by omega)]
  · have h2 : ¬ c < 0 := by rw [Int64.lt_iff_toInt_lt]; exact Int.not_lt.2 hc
    rw [if_neg h1, if_neg h2]

example : Expr.kid [.current, .int 1] 1 = .ok (some (.int 1)) := C72_kid_partial _ (by decide) 1 (by decide)
example : Expr.kid [.current, .int 1] 2 = .ok none := C72_kid_partial _ (by decide) 2 (by decide)

/-- In every tree that `ParseScriptExpression` returns, `IsLeaf` is false just for the nodes of type `Inner`. -/
theorem C72_leaf (text : Bytes) (e : Expr) (h : parseScriptExpression env text = .ok e) (x : Expr) (hx : Part e x) :
    x.isLeaf = true ↔ ∀ op kids, x ≠ .inner op kids :=
  leaf_tree (part_tree hx (.inl ((C30_trees_expr env e).1 ⟨_, h⟩)))

/-- `-(1)` has an inner node and a leaf. -/
example := C72_leaf Ex.env (b! "-(1)") (.inner .neg [.int 1]) (by krfl) (.int 1) (.kid _ _ _ _ (by simp) (.self _))
example := C72_leaf Ex.env (b! "-(1)") (.inner .neg [.int 1]) (by krfl) _ (.self _)

/-- The same for the expressions in a path. -/
theorem C72_leaf_path (text : Bytes) (q : Path) (h : parsePath env text = .ok q) (e : Expr) (he : InPath q e) (x : Expr) (hx : Part e x) :
    x.isLeaf = true ↔ ∀ op kids, x ≠ .inner op kids :=
  leaf_tree (part_tree hx (.inl (inPath_tree ((C30_trees env q).1 ⟨_, h⟩) he)))

/-- `$[(-(1)):]` -/
example := C72_leaf_path Ex.env (b! "$[(-(1)):]") [⟨.select, [.slice ⟨some (.expr (.inner .neg [.int 1])), none, none⟩]⟩] (by krfl) _
  (.start (s := ⟨_, none, none⟩) (.head _) (.head _) rfl) _ (.self _)

/-- `IsStructure` is `IsObject` or `IsArray`, and no value is both. -/
theorem C72_structure (v : V) : isStructure v = (isObject v || isArray v) ∧ ¬ (isObject v = true ∧ isArray v = true) := by
  cases v <;> exact ⟨rfl, by simp [isObject, isArray]⟩

example := C72_structure (.arr [])

/-- Steps with the same text may select differently: `$[(0)]` and `$[(1)]`. -/
theorem C72_text_fails : ∃ (p p' : JSONPath) (q q' : Path) (d : V), IsCompiled env p q ∧ IsCompiled env p' q' ∧
    q.map (Step.text env) = q'.map (Step.text env) ∧ Eval env oracle p d ≠ Eval env oracle p' d := by
  refine ⟨_, _, _, _, .arr [.bool true, .bool false], ⟨⟨b! "$[(0)]", rfl, rfl⟩, by decide⟩, ⟨⟨b! "$[(1)]", rfl, rfl⟩, by decide⟩, rfl, ?_⟩
  intro h
  have h1 := (run_of_runFuel (r := .ok (some [.bool true])) 40 _ (by krfl)).symm.trans h
  have h2 := h1.trans (run_of_runFuel (r := .ok (some [.bool false])) 40 _ (by krfl))
  cases h2

/-- Paths without expressions whose steps have the same texts give the same results, and the same errors. -/
theorem C72_text_partial (p p' : JSONPath) (q q' : Path) (h : IsCompiled env p q) (h' : IsCompiled env p' q')
    (hp : ∀ e, ¬ InPath q e) (hp' : ∀ e, ¬ InPath q' e) (ht : q.map (Step.text env) = q'.map (Step.text env)) (d : V) :
    Eval env oracle p d = Eval env oracle p' d := by
  rw [h.eval, h'.eval]
  exact congrArg _ (evalPath_texts h.wf h'.wf (plain_of_inPath hp) (plain_of_inPath hp') ht)

/-- `$.a["b",1:]` and `$.a[b,1:]`. -/
example := C72_text_partial Ex.env Oracle.id _ _ [⟨.member, [.name (b! "a")]⟩, ⟨.union, [.str (b! "b"), .slice ⟨some (.int 1), none, none⟩]⟩]
  [⟨.member, [.name (b! "a")]⟩, ⟨.union, [.name (b! "b"), .slice ⟨some (.int 1), none, none⟩]⟩]
  ⟨⟨b! "$.a[\"b\",1:]", rfl, rfl⟩, by decide⟩ ⟨⟨b! "$.a[b,1:]", rfl, rfl⟩, by decide⟩
  (by
    rintro e (⟨hx, hv⟩ | ⟨hx, hv, hs⟩ | ⟨hx, hv, hs⟩ | ⟨hx, hv, hs⟩) <;> simp only [List.mem_cons, List.not_mem_nil, or_false] at hx <;>
      rcases hx with rfl | rfl <;> simp at hv <;> (subst hv; cases hs)) (by
    rintro e (⟨hx, hv⟩ | ⟨hx, hv, hs⟩ | ⟨hx, hv, hs⟩ | ⟨hx, hv, hs⟩) <;> simp only [List.mem_cons, List.not_mem_nil, or_false] at hx <;>
      rcases hx with rfl | rfl <;> simp at hv <;> (subst hv; cases hs)) rfl Ex.doc

end JP
