import Verif.Proof.Swap
import Verif.Props.Core
import Verif.Props.Locate
import Verif.Proof.KRfl
/-!
Expressions with the same value may replace each other: C82.

The programs have fewer than 2^22 orders (part of `IsCompiled`), as all those of texts of at most 3 MB (C87).
-/
namespace JP
open Spec

variable (env : Env) (oracle : Oracle)

/-! ### C82 Equal expressions are interchangeable -/

/-- If two expressions have the same outcome on a document for every value of `@`, a path with one of them and
the path with the other in its place have the same outcome on it. -/
theorem C82_swap (p p' : JSONPath) (q q' : Path) (h : IsCompiled env p q) (h' : IsCompiled env p' q') (a b : Expr)
    (hs : SwapPath a b q q') (root : V)
    (he : ∀ dot t, evalExpr env oracle root dot a t = evalExpr env oracle root dot b t) :
    Eval env oracle p root = Eval env oracle p' root := by
  rw [h.eval oracle root, h'.eval oracle root]
  unfold evalPath
  rw [evalSteps_swap he hs]

/-- For expressions without function calls it is enough that they have the same outcome in one order of map
iteration. -/
theorem C82_call_free (p p' : JSONPath) (q q' : Path) (h : IsCompiled env p q) (h' : IsCompiled env p' q') (a b : Expr)
    (ha : Expr.callFree a = true) (hb : Expr.callFree b = true) (hs : SwapPath a b q q') (root : V)
    (he : ∀ dot, evalExpr env Oracle.id root dot a 0 = evalExpr env Oracle.id root dot b 0) :
    Eval env oracle p root = Eval env oracle p' root := by
  refine C82_swap env oracle p p' q q' h h' a b hs root ?_
  intro dot t
  rw [evalExpr_callFree (oracle := Oracle.id) a ha 0 t _ rfl, evalExpr_callFree (oracle := Oracle.id) b hb 0 t _ rfl, he dot]

/-- A path with `1+1` and the same with `2`, in a filter after a union. -/
private def sums : Path := [⟨.union, [.str (b! "x"), .str (b! "y")]⟩,
  ⟨.filter, [.expr (.inner .gt [.inner .dot [.current, .name (b! "a")], .inner .add [.int 1, .int 1]])]⟩]

private def sums' : Path := [⟨.union, [.str (b! "x"), .str (b! "y")]⟩,
  ⟨.filter, [.expr (.inner .gt [.inner .dot [.current, .name (b! "a")], .int 2])]⟩]

example : ∃ p p', IsCompiled Ex.env p sums ∧ IsCompiled Ex.env p' sums' ∧ SwapPath (.inner .add [.int 1, .int 1]) (.int 2) sums sums' ∧
    ∀ root dot, evalExpr Ex.env Oracle.id root dot (.inner .add [.int 1, .int 1]) 0 = evalExpr Ex.env Oracle.id root dot (.int 2) 0 :=
  let ⟨p, _, h⟩ := compiled_of_parse (env := Ex.env) (text := b! "$['x','y'][?(@.a > 1+1)]") (q := sums) (by krfl) (by decide)
  let ⟨p', _, h'⟩ := compiled_of_parse (env := Ex.env) (text := b! "$['x','y'][?(@.a > 2)]") (q := sums') (by krfl) (by decide)
  ⟨p, p', h, h', .cons ⟨rfl, .cons (.same _) (.cons (.same _) .nil)⟩ (.cons ⟨rfl, .cons (.expr (.inner _ (.cons (.same _) (.cons .here .nil)))) .nil⟩ .nil),
    fun _ _ => rfl⟩

/-- Partial evaluation: an expression without `@` and without calls, whose value on the document is that of a
literal, may be replaced by the literal. -/
theorem C82_literal (p p' : JSONPath) (q q' : Path) (h : IsCompiled env p q) (h' : IsCompiled env p' q') (e l : Expr) (v : V)
    (hf : Expr.fixed e = true) (hl : Literal l v) (hs : SwapPath e l q q') (root : V)
    (he : evalExpr env Oracle.id root .null e 0 = .ok (v, 0)) : Eval env oracle p root = Eval env oracle p' root := by
  refine C82_call_free env oracle p p' q q' h h' e l (fixed_callFree e hf) ?_ hs root ?_
  · cases hl <;> rfl
  · intro dot
    rw [evalExpr_fixed (dot' := .null) e hf, he]
    cases hl <;> rfl

/-- `$.a[?(@ > $.n)]` and, for documents in which `n` is 2, `$.a[?(@ > 2)]`. -/
private def above : Path := [⟨.member, [.name (b! "a")]⟩, ⟨.filter, [.expr (.inner .gt [.current, .inner .dot [.root, .name (b! "n")]])]⟩]

private def above' : Path := [⟨.member, [.name (b! "a")]⟩, ⟨.filter, [.expr (.inner .gt [.current, .int 2])]⟩]

private def twos : V := .obj [(b! "n", .int 2), (b! "a", .arr [.int 1, .int 2, .int 3])]

example : ∃ p p', IsCompiled Ex.env p above ∧ IsCompiled Ex.env p' above' ∧
    Expr.fixed (.inner .dot [.root, .name (b! "n")]) = true ∧ Literal (.int 2) (.int 2) ∧
    SwapPath (.inner .dot [.root, .name (b! "n")]) (.int 2) above above' ∧
    evalExpr Ex.env Oracle.id twos .null (.inner .dot [.root, .name (b! "n")]) 0 = .ok (.int 2, 0) ∧
    Eval Ex.env Oracle.id p twos = some (.ok (some [.int 3])) :=
  let ⟨p, _, h⟩ := compiled_of_parse (env := Ex.env) (text := b! "$.a[?(@ > $.n)]") (q := above) (by krfl) (by decide)
  let ⟨p', _, h'⟩ := compiled_of_parse (env := Ex.env) (text := b! "$.a[?(@ > 2)]") (q := above') (by krfl) (by decide)
  ⟨p, p', h, h', rfl, .int _,
    .cons ⟨rfl, .cons (.same _) .nil⟩ (.cons ⟨rfl, .cons (.expr (.inner _ (.cons (.same _) (.cons .here .nil)))) .nil⟩ .nil),
    rfl, by rw [h.eval Oracle.id twos]; krfl⟩

/-- A regular expression on the right of `=~` may be written as a literal or as a string. -/
theorem C82_regexp (p p' : JSONPath) (q q' : Path) (h : IsCompiled env p q) (h' : IsCompiled env p' q') (e : Expr) (s : Bytes)
    (hv : env.reValid s = true) (hs : SwapPath (.inner .match_ [e, .re s]) (.inner .match_ [e, .str s]) q q') (root : V) :
    Eval env oracle p root = Eval env oracle p' root := by
  refine C82_swap env oracle p p' q q' h h' _ _ hs root fun dot t => ?_
  simp only [evalExpr, evalKids]
  cases evalExpr env oracle root dot e t with
  | ok a =>
    simp only [Res.bind_ok, applyOp, binop, opMatch, isNothing, hv, if_true]
  | err e => rfl
  | panic m => rfl
  | stuck => rfl

/-- `$[?(@ =~ /b/)]` and `$[?(@ =~ "b")]`. -/
example : ∃ p p', Ex.env.reValid (b! "b") = true ∧ IsCompiled Ex.env p [⟨.filter, [.expr (.inner .match_ [.current, .re (b! "b")])]⟩] ∧
    IsCompiled Ex.env p' [⟨.filter, [.expr (.inner .match_ [.current, .str (b! "b")])]⟩] ∧
    SwapPath (.inner .match_ [.current, .re (b! "b")]) (.inner .match_ [.current, .str (b! "b")])
      [⟨.filter, [.expr (.inner .match_ [.current, .re (b! "b")])]⟩] [⟨.filter, [.expr (.inner .match_ [.current, .str (b! "b")])]⟩] := by
  obtain ⟨p, -, h⟩ := compiled_of_parse (env := Ex.env) (text := b! "$[?(@=~/b/)]") (q := [⟨.filter, [.expr (.inner .match_ [.current, .re (b! "b")])]⟩])
    (by krfl) (by decide)
  obtain ⟨p', -, h'⟩ := compiled_of_parse (env := Ex.env) (text := b! "$[?(@=~'b')]") (q := [⟨.filter, [.expr (.inner .match_ [.current, .str (b! "b")])]⟩])
    (by krfl) (by decide)
  exact ⟨p, p', rfl, h, h', .cons ⟨rfl, .cons (.expr .here) .nil⟩ .nil⟩

end JP
