import Verif.Proof.Layout
import Verif.Proof.Documented
import Verif.Proof.Print
import Verif.Proof.KRfl
import Verif.Props.Ex
/-!
The language of paths: C30, C31, C32, C35, C46.

Tokens and how they are spelled are in `Spec.Lexical`, the grammar in `Spec.Grammar`, texts put together from
other texts in `Spec.Layout`, trees and how they are written in `Spec.Print`, the grammar of the documentation in `Spec.Documented`.
-/
namespace JP
open Spec

variable (env : Env)

/-! ### C30 Every path tree can be written and read back -/

/-- The full statement: every tree of a path has a text. -/
def EveryTree : Prop := ∀ p, TreePath env false p → ∃ text, parsePath env text = .ok p

/-- It is false: there is no text for the integer -9223372036854775807 in a subscript. -/
theorem C30_write_fails : ¬ EveryTree env := by
  intro h
  obtain ⟨text, ht⟩ := h [⟨.select, [.int (-9223372036854775807)]⟩] (by
    intro s hs
    simp at hs
    subst hs
    exact .select _ (.elem _ (.int _ (by intro h; cases h))))
  obtain ⟨ts, h1, us, h2, rfl⟩ := parsePath_iff.mp ht
  have h3 := GSteps.tree h2 (Sp.tail h1.spelled) ⟨.select, [.int (-9223372036854775807)]⟩ (by simp)
  cases h3 with
  | select v h3 =>
    cases h3 with
    | elem v h3 =>
      cases h3 with
      | int n h3 => exact absurd (h3 rfl) (by decide)

/-- Nor is there one for a regular expression that ends with a backslash, though it be a valid one. -/
theorem C30_write_re_fails (s : Bytes) (h : s.getLast? = some (c! '\\')) (text : Bytes) :
    parseScriptExpression env text ≠ .ok (.re s) := by
  intro ht
  obtain ⟨ts, h1, h2⟩ := parseScript_inv ht
  have hs : Sp env ts := by
    rcases h2 with h2 | ⟨_, _, _, _, _, h2⟩ <;> exact h2.spelled
  cases GExpr.tree h1 hs with
  | re _ _ h3 => exact h3 rfl h

example := C30_write_re_fails Ex.env (b! "a\\") rfl

/-- What holds: every other tree is what its printing is parsed to. -/
theorem C30_write_partial (p : Path) (h : TreePath env true p) : parsePath env (writePath p) = .ok p := by
  obtain ⟨us, h1, h2⟩ := path_back h (pre := b! "$") (p0 := []) (.punctP (by decide) (.nil _ White.nil)) ⟨[], .nil, rfl⟩
  exact parsePath_iff.mpr ⟨us, h1, h2⟩

example := C30_write_partial Ex.env [⟨.filter, [.expr (.inner .sub [.current, .int 7])]⟩, ⟨.wild, []⟩] (fun s hs => by
  simp at hs
  rcases hs with rfl | rfl
  · exact .filter _ (.binary _ _ _ ⟨_, .sub⟩ .current (.int _ (by decide)))
  · exact .wild)

/-- The same for expressions. -/
theorem C30_write_expr_partial (e : Expr) (h : Tree env true e) : parseScriptExpression env (writeExpr e) = .ok e := by
  obtain ⟨ts, h1, h2⟩ := h.back
  exact parseScript_written h1 h2

example := C30_write_expr_partial Ex.env (.inner .sub [.current, .int 7]) (.binary _ _ _ ⟨_, .sub⟩ .current (.int _ (by decide)))

/-- These are all the trees there are: a tree has a text exactly if it is one of them. -/
theorem C30_trees (p : Path) : (∃ text, parsePath env text = .ok p) ↔ TreePath env true p := by
  constructor
  · rintro ⟨text, h⟩
    obtain ⟨ts, h1, us, h2, rfl⟩ := parsePath_iff.mp h
    exact GSteps.tree h2 (Sp.tail h1.spelled)
  · exact fun h => ⟨_, C30_write_partial env p h⟩

/-- The same for expressions. -/
theorem C30_trees_expr (e : Expr) : (∃ text, parseScriptExpression env text = .ok e) ↔ Tree env true e := by
  constructor
  · rintro ⟨text, h⟩
    obtain ⟨ts, h1, h2⟩ := parseScript_inv h
    have hs : Sp env ts := by
      rcases h2 with h2 | ⟨_, _, _, _, _, h2⟩ <;> exact h2.spelled
    exact GExpr.tree h1 hs
  · exact fun h => ⟨_, C30_write_expr_partial env e h⟩

/-- In particular the floating-point numbers with a text are the finite ones without a minus sign. -/
theorem C30_floats (f : F64) : (∃ text, parseScriptExpression env text = .ok (.float f)) ↔ f.Finite ∧ f.neg? = false := by
  rw [C30_trees_expr]
  constructor
  · rintro (_ | ⟨_, h1, h2⟩)
    exact ⟨h1, h2⟩
  · exact fun ⟨h1, h2⟩ => .float f h1 h2

/-- The tree of `$.a..["b"][?(@.c =~ /x\/y/)][-1:(-2),7]`. -/
def Ex.tree : Path :=
  [⟨.member, [.name (b! "a")]⟩, ⟨.nestSelect, [.str (b! "b")]⟩,
    ⟨.filter, [.expr (.inner .match_ [.inner .dot [.current, .name (b! "c")], .re (b! "x/y")])]⟩,
    ⟨.union, [.slice ⟨some (.int (-1)), some (.expr (.inner .neg [.int 2])), none⟩, .int 7]⟩]

example : writePath Ex.tree = b! "$.a..[\"b\"][?(((@).c) =~ (/x\\/y/))][-1:(-(2)),7]" := by
  simp [Ex.tree, writePath, writeStep, writeVal, writeExpr, writeExprs, writeInner, writeBound, writeInt, writeNat, writeRe, writeOp, paren,
    bracket, commas, writeStr, writeByte]
example : TreePath Ex.env true Ex.tree := by
  rw [← C30_trees]
  exact ⟨b! "$.a..['b'][?(@.c=~/x\\/y/)][-1:(-2),7]", by krfl⟩

/-! ### C31 Operator precedence and associativity -/

/-- Three operands with white space around the operators, as an expression and in a filter. -/
theorem C31_precedence (a b c o1 o2 g1 g2 g3 g4 : Bytes) (ea eb ec : Expr) (op1 op2 : Op)
    (ha : PrimaryText env a ea) (hb : PrimaryText env b eb) (hc : PrimaryText env c ec) (h1 : OpText o1 op1) (h2 : OpText o2 op2)
    (hg : ∀ g ∈ [g1, g2, g3, g4], White g ∧ g ≠ []) :
    let text := a ++ (g1 ++ (o1 ++ (g2 ++ (b ++ (g3 ++ (o2 ++ (g4 ++ c)))))))
    let tree := if prio op2 ≤ prio op1 then .inner op2 [.inner op1 [ea, eb], ec] else .inner op1 [ea, .inner op2 [eb, ec]]
    parseScriptExpression env text = .ok tree ∧
    parsePath env (b! "$[?(" ++ (text ++ b! ")]")) = .ok [⟨.filter, [.expr tree]⟩] := by
  obtain ⟨ta, wa, ga⟩ := ha
  obtain ⟨tb, wb, gb⟩ := hb
  obtain ⟨tc, wc, gc⟩ := hc
  obtain ⟨l1, t1, w1⟩ := h1.word (pf := env.parseFloat)
  obtain ⟨l2, t2, w2⟩ := h2.word (pf := env.parseFloat)
  have s4 := (written_one w2).sep wc (hg g4 (by simp)).1 (hg g4 (by simp)).2 (outside_primary gc)
  have s3 := wb.sep s4 (hg g3 (by simp)).1 (hg g3 (by simp)).2 (outside_expr _ _)
  have s2 := (written_one w1).sep s3 (hg g2 (by simp)).1 (hg g2 (by simp)).2 (outside_append (outside_primary gb) (by
    obtain ⟨lx, us, rfl, _⟩ := GPrimary_first gb; simp))
  have s1 := wa.sep s2 (hg g1 (by simp)).1 (hg g1 (by simp)).2 (outside_expr _ _)
  have g := three ga gb gc t1 t2
  exact ⟨parseScript_written s1 g, parsePath_filter s1 g⟩

example := C31_precedence Ex.env (b! "@") (b! "$") (b! "@") (b! "-") (b! "*") (b! " ") (b! " ") (b! " ") (b! " ") _ _ _ _ _
  ⟨_, .punctX (by decide) (.nil _ White.nil), .atom _ _ .current⟩ ⟨_, .punctX (by decide) (.nil _ White.nil), .atom _ _ .root⟩
  ⟨_, .punctX (by decide) (.nil _ White.nil), .atom _ _ .current⟩ .sub .mul (by simp [White, All, Space])

/-- The same with any white space or none, where the text still has these tokens. -/
theorem C31_precedence_tokens (text : Bytes) (ta tb tc : List Token) (l1 l2 : Lexeme) (ea eb ec : Expr) (op1 op2 : Op)
    (ha : GPrimary env.reValid ta ea) (hb : GPrimary env.reValid tb eb) (hc : GPrimary env.reValid tc ec)
    (h1 : OpTok l1 op1 (prio op1)) (h2 : OpTok l2 op2 (prio op2))
    (ht : Written env.parseFloat (ta ++ .expr l1 :: (tb ++ .expr l2 :: tc)) text) :
    parseScriptExpression env text = .ok
      (if prio op2 ≤ prio op1 then .inner op2 [.inner op1 [ea, eb], ec] else .inner op1 [ea, .inner op2 [eb, ec]]) :=
  parseScript_written ht (three ha hb hc h1 h2)

example := C31_precedence_tokens Ex.env (b! "@-$*@") _ _ _ _ _ _ _ _ .sub .mul (.atom _ _ .current) (.atom _ _ .root) (.atom _ _ .current)
  .sub .mul (Written.punctX (by decide) (.punctX (by decide) (.punctX (by decide) (.punctX (by decide) (.punctX (by decide) (.nil _ White.nil))))))

/-- It groups to the left exactly if the first operator has at least the priority of the second. -/
theorem C31_left_iff (a b c o1 o2 : Bytes) (ea eb ec : Expr) (op1 op2 : Op)
    (ha : PrimaryText env a ea) (hb : PrimaryText env b eb) (hc : PrimaryText env c ec) (h1 : OpText o1 op1) (h2 : OpText o2 op2) :
    parseScriptExpression env (a ++ (b! " " ++ (o1 ++ (b! " " ++ (b ++ (b! " " ++ (o2 ++ (b! " " ++ c)))))))) =
      .ok (.inner op2 [.inner op1 [ea, eb], ec]) ↔ prio op2 ≤ prio op1 := by
  have h := (C31_precedence env a b c o1 o2 (b! " ") (b! " ") (b! " ") (b! " ") ea eb ec op1 op2 ha hb hc h1 h2 (by
    intro g hg
    simp at hg
    subst hg
    exact ⟨by intro c hc; simp at hc; subst hc; exact .inl rfl, by simp⟩)).1
  rw [h]
  constructor
  · intro e
    by_cases hle : prio op2 ≤ prio op1
    · exact hle
    · rw [if_neg hle] at e
      simp only [Res.ok.injEq, Expr.inner.injEq, List.cons.injEq] at e
      have := congrArg sizeOf e.2.1
      simp at this
      omega
  · intro hle; rw [if_pos hle]

/-- Operands `@.a`, `[1, 2]` and `(true)`, say. -/
example : PrimaryText Ex.env (b! "@.a") (.inner .dot [.current, .name (b! "a")]) := by
  refine ⟨[.x (c! '@'), .x (c! '.'), .expr (nameTok (b! "a"))], ?_, .dot [_] _ _ (.atom _ _ .current)⟩
  exact Written.punctX (by decide) (.punctX (by decide) (written_one (.name _ _ _ (by simp [Letter]) (by simp [All]) (.nil _))))
example : OpText (b! "nin") .nin ∧ OpText (b! "||") .or := ⟨.nin, .or⟩
example : parseScriptExpression Ex.env (b! "1 - 2 - 3 * 4") =
    .ok (.inner .sub [.inner .sub [.int 1, .int 2], .inner .mul [.int 3, .int 4]]) := rfl

/-! ### C32 White space between tokens is insignificant -/

/-- However an accepted text is taken apart into tokens and white space, other white space in the same
places, or more, gives the same tree. -/
theorem C32_space (a : Bytes) (p : Path) (h : parsePath env a = .ok p) :
    ∃ ts, Written env.parseFloat ts a ∧ ∀ b, Respaced env.parseFloat ts a b → parsePath env b = .ok p := by
  obtain ⟨ts, h1, h2⟩ := parsePath_iff.mp h
  exact ⟨ts, h1, fun b hb => parsePath_iff.mpr ⟨ts, hb.right, h2⟩⟩

example := C32_space Ex.env (b! "$..a[ 1 : 2 ]") _ rfl

/-- From the tokens: if they are a path, then it is what either text is parsed to. -/
theorem C32_tokens (ts : List Token) (a b : Bytes) (p : Path) (h : GPath env.reValid ts p) (hr : Respaced env.parseFloat ts a b) :
    parsePath env a = .ok p ∧ parsePath env b = .ok p :=
  ⟨parsePath_iff.mpr ⟨ts, hr.left, h⟩, parsePath_iff.mpr ⟨ts, hr.right, h⟩⟩

example := C32_tokens Ex.env [.p (c! '$'), .p (c! '['), .p (c! '*'), .p (c! ']')] (b! "$[*]") (b! "$ [ * ] ") _
  ⟨_, .cons _ _ [] [] (.sub _ _ .wild) .nil, rfl⟩
  (.cons _ _ [] [] (b! "$") (b! "[*]") (b! " [ * ] ") White.nil White.nil (by simp) (.path _ _ _ (.punct _ _ (by decide)))
    (.cons _ _ [] (b! " ") (b! "[") (b! "*]") (b! " * ] ") White.nil (by simp [Gap, White, All, Space]) (by simp) (.path _ _ _ (.punct _ _ (by decide)))
      (.cons _ _ [] (b! " ") (b! "*") (b! "]") (b! " ] ") White.nil (by simp [Gap, White, All, Space]) (by simp) (.path _ _ _ (.punct _ _ (by decide)))
        (.cons _ _ [] (b! " ") (b! "]") [] (b! " ") White.nil (by simp [Gap, White, All, Space]) (by simp) (.path _ _ _ (.punct _ _ (by decide)))
          (.nil _ _ White.nil (by simp [White, All, Space]))))))

/-- The same for expressions. -/
theorem C32_script (ts : List Token) (a b : Bytes) (e : Expr) (h : GExpr env.reValid 0 ts e) (hr : Respaced env.parseFloat ts a b) :
    parseScriptExpression env a = .ok e ∧ parseScriptExpression env b = .ok e :=
  ⟨parseScript_written hr.left h, parseScript_written hr.right h⟩

example := C32_script Ex.env [.x (c! '-'), .x (c! '@')] (b! "-@") (b! " - @") _ (.unary _ _ _ (.neg _ _ (.primary _ _ (.atom _ _ .current))))
  (.cons _ _ [] (b! " ") (b! "-") (b! "@") (b! " @") White.nil (by simp [Gap, White, All, Space]) (by simp) (.expr _ _ _ (.punct _ _ (by decide)))
    (.cons _ _ [] (b! " ") (b! "@") [] [] White.nil (by simp [Gap, White, All, Space]) (by simp) (.expr _ _ _ (.punct _ _ (by decide)))
      (.nil _ _ White.nil White.nil)))

/-- White space around a whole path. -/
theorem C32_around (a g g' : Bytes) (p : Path) (h : parsePath env a = .ok p) (hg : White g) (hg' : White g') :
    parsePath env (g ++ (a ++ g')) = .ok p := by
  obtain ⟨ts, h1, h2⟩ := parsePath_iff.mp h
  have ho : Outside ts := by obtain ⟨us, _, rfl⟩ := h2; exact outside_path _ _
  refine parsePath_iff.mpr ⟨ts, ?_, h2⟩
  cases g' with
  | nil => simpa using h1.gap hg ho
  | cons c g' =>
    have := h1.join (us := []) (.nil _ hg') (neutral_space (hg' c (by simp))) outside_nil
    simp only [List.append_nil] at this
    exact this.gap hg ho

example : Respaced Ex.env.parseFloat [.p (c! '$'), .p (c! '['), .path (intTok 1), .p (c! ']')] (b! "$[1]") (b! " $ [ 1\n] ") :=
  .cons _ _ [] (b! " ") (b! "$") (b! "[1]") (b! " [ 1\n] ") White.nil (by simp [Gap, White, All, Space]) (by simp) (.path _ _ _ (.punct _ _ (by decide)))
    (.cons _ _ [] (b! " ") (b! "[") (b! "1]") (b! " 1\n] ") White.nil (by simp [Gap, White, All, Space]) (by simp) (.path _ _ _ (.punct _ _ (by decide)))
      (.cons _ _ [] (b! " ") (b! "1") (b! "]") (b! "\n] ") White.nil (by simp [Gap, White, All, Space]) (by simp)
        (.path _ _ _ (.int (b! "1") _ ⟨by simp, by simp [All, Digit]⟩ (by simp [Spec.Stops, Digit]) (by decide)))
        (.cons _ _ [] (b! "\n") (b! "]") [] (b! " ") White.nil (by simp [Gap, White, All, Space]) (by simp) (.path _ _ _ (.punct _ _ (by decide)))
          (.nil _ _ White.nil (by simp [Gap, White, All, Space])))))

/-! ### C35 Unions contain only indices, names and slices -/

/-- A subscript of two or more elements one of which is `*`, a filter or an expression in parentheses, after
any path and whatever follows it, is rejected. -/
theorem C35_rejects (pre next dots : Bytes) (p : Path) (ws : List Bytes) (hp : parsePath env pre = .ok p)
    (hd : dots = [] ∨ dots = b! "..") (h2 : 2 ≤ ws.length) (hw : ∀ w ∈ ws, (∃ v, ElemText env w v) ∨ AloneText env w)
    (ha : ∃ w ∈ ws, AloneText env w) :
    let text := pre ++ (dots ++ c! '[' :: (commas ws ++ c! ']' :: next))
    (∀ p', parsePath env text ≠ .ok p') ∧ ∀ c, Compile env text ≠ .ok c := by
  have key : ∀ p', parsePath env (pre ++ (dots ++ c! '[' :: (commas ws ++ c! ']' :: next))) ≠ .ok p' := by
    obtain ⟨ts0, w0, g0⟩ := parsePath_iff.mp hp
    have hlast := g0.lastTok
    obtain ⟨us, gs, rfl⟩ := g0
    obtain ⟨ts, l, w1, g1, hl, hbad⟩ := commas_vals (ws := ws) (by rintro rfl; simp at h2) hw
    obtain ⟨op, hop⟩ := hbad ha
    have w2 := w1.punctP (c := c! '[') (by decide)
    rcases hd with rfl | rfl
    · refine fun p' => bad_list_text (next := next) (b := pre ++ c! '[' :: commas ws) gs g1 (by omega) hop [] (.inl rfl) ?_ (by simp) p'
      exact w0.join w2 (neutral_of (by decide)) (outside_path _ _)
    · refine fun p' => bad_list_text (next := next) (b := pre ++ c! '.' :: c! '.' :: c! '[' :: commas ws) gs g1 (by omega) hop _ (.inr rfl) ?_ (by simp) p'
      have w3 : Written env.parseFloat (.path (.plain .nest) :: .p (c! '[') :: ts) (c! '.' :: c! '.' :: c! '[' :: commas ws) :=
        .cons _ _ [] (b! "..") _ White.nil (.path _ _ _ (.nest _)) w2
      exact w0.join_dot w3 (outside_path _ _) hlast
  refine ⟨key, fun c hc => ?_⟩
  unfold Compile at hc
  split at hc
  all_goals first | cases hc | skip
  exact key _ (by assumption)

example := C35_rejects Ex.env (b! "$.a") [] (b! "..") _ [b! "*", b! "*"] rfl (.inr rfl) (by simp)
  (fun w hw => .inr (by simp at hw; subst hw; exact ⟨_, .punctP (by decide) (.nil _ White.nil), .wild⟩))
  ⟨_, .head _, _, .punctP (by decide) (.nil _ White.nil), .wild⟩

/-- A subscript of two or more indices, names, strings and slices, after any path, is accepted with those
elements in order. -/
theorem C35_accepts (pre : Bytes) (p : Path) (l : List (Bytes × Val)) (hp : parsePath env pre = .ok p) (h2 : 2 ≤ l.length)
    (hw : ∀ x ∈ l, ElemText env x.1 x.2) :
    parsePath env (pre ++ c! '[' :: (commas (l.map Prod.fst) ++ b! "]")) = .ok (p ++ [⟨.union, l.map Prod.snd⟩]) ∧
    parsePath env (pre ++ c! '.' :: c! '.' :: c! '[' :: (commas (l.map Prod.fst) ++ b! "]")) = .ok (p ++ [⟨.nestUnion, l.map Prod.snd⟩]) := by
  obtain ⟨ts0, w0, g0⟩ := parsePath_iff.mp hp
  have hlast := g0.lastTok
  obtain ⟨us, gs, rfl⟩ := g0
  obtain ⟨ts, w1, g1⟩ := commas_elems hw (by rintro rfl; simp at h2)
  have g2 : GSub env.reValid ts (.union (l.map Prod.snd)) := .union _ _ g1 (by simpa using h2)
  have wclose : Written env.parseFloat [.p (c! ']')] (b! "]") := .punctP (by decide) (.nil _ White.nil)
  have w2 : Written env.parseFloat (.p (c! '[') :: (ts ++ [.p (c! ']')])) (c! '[' :: (commas (l.map Prod.fst) ++ b! "]")) :=
    .punctP (by decide) (w1.join wclose (neutral_of (by decide)) (outside_path _ _))
  constructor
  · refine parsePath_iff.mpr ⟨_, w0.join w2 (neutral_of (by decide)) (outside_path _ _), ?_⟩
    exact ⟨_, GSteps_append gs (.cons _ _ _ _ (.sub _ _ g2) .nil), by simp⟩
  · have w3 : Written env.parseFloat (.path (.plain .nest) :: .p (c! '[') :: (ts ++ [.p (c! ']')]))
        (c! '.' :: c! '.' :: c! '[' :: (commas (l.map Prod.fst) ++ b! "]")) :=
      .cons _ _ [] (b! "..") _ White.nil (.path _ _ _ (.nest _)) w2
    refine parsePath_iff.mpr ⟨_, w0.join_dot w3 (outside_path _ _) hlast, ?_⟩
    exact ⟨_, GSteps_append gs (.cons _ _ _ _ (.nestSub _ _ g2) .nil), by simp⟩

example : parsePath Ex.env (b! "$.a") = .ok [⟨.member, [.name (b! "a")]⟩] := rfl
example : ElemText Ex.env (b! "b-c") (.name (b! "b-c")) :=
  ⟨[.path (nameTok (b! "b-c"))], .cons _ [] [] (b! "b-c") [] White.nil
    (.path _ _ _ (.name _ _ _ (by simp [Letter]) (by simp [All, LetterDigitDash, Letter]) (.nil _))) (.nil _ White.nil), .name _⟩
example : AloneText Ex.env (b! "*") := ⟨_, .punctP (by decide) (.nil _ White.nil), .wild⟩
example : ∃ e, parsePath Ex.env (b! "$.a[b-c,*]") = .err e := ⟨_, rfl⟩

/-! ### C46 Accepted paths follow the documented grammar -/

/-- The full statement: an accepted text has tokens that derive from the documented grammar, and the
derivation describes the tree. -/
def DocumentedRule : Prop :=
  ∀ (text : Bytes) (p : Path), parsePath env text = .ok p → ∃ ts, Written env.parseFloat ts text ∧ DPath env.reValid ts p

/-- It is false: a name without quotes is accepted as a subscript, as in `$[a]`. -/
theorem C46_documented_fails : ¬ DocumentedRule env := by
  intro h
  obtain ⟨ts, h1, h2⟩ := h (b! "$[a]") [⟨.select, [.name (b! "a")]⟩] rfl
  exact DPath_no_name (c := c! 'a') (x := b! "]") (by simp [Letter]) h1 h2

/-- No other tree has a derivation either: no text that begins with `$[` and a letter is in the language. -/
theorem C46_no_names (c : UInt8) (x : Bytes) (hc : Letter c) (ts : List Token) (p : Path)
    (h : Written env.parseFloat ts (b! "$[" ++ c :: x)) : ¬ DPath env.reValid ts p :=
  fun hd => DPath_no_name hc h hd

example := C46_no_names Ex.env (c! 'a') (b! "]") (by simp [Letter]) _ [] ((C32_space Ex.env (b! "$[a]") _ rfl).choose_spec.1)

/-- What holds: the statement for the paths without such names. -/
theorem C46_documented_partial (text : Bytes) (p : Path) (h : parsePath env text = .ok p)
    (hq : ∀ s ∈ p, s.op ∈ [Op.select, .union, .nestSelect, .nestUnion] → ∀ v ∈ s.args, ∀ n, v ≠ .name n) :
    ∃ ts, Written env.parseFloat ts text ∧ DPath env.reValid ts p := by
  obtain ⟨ts, h1, us, h2, rfl⟩ := parsePath_iff.mp h
  exact ⟨_, h1, .mk _ _ (GSteps.documented h2 fun s hs hop v hv n hn => hq s hs (by
    rcases hop with h | h | h | h <;> simp [h]) v hv n hn)⟩

example := C46_documented_partial Ex.env (b! "$.a['b']") [⟨.member, [.name (b! "a")]⟩, ⟨.select, [.str (b! "b")]⟩] rfl (by simp)

/-- What holds for all: the grammar with names among the elements of a subscript. -/
theorem C46_grammar (text : Bytes) (p : Path) :
    parsePath env text = .ok p ↔ ∃ ts, Written env.parseFloat ts text ∧ GPath env.reValid ts p := parsePath_iff

example : ∀ s ∈ ([⟨.member, [.name (b! "a")]⟩, ⟨.select, [.str (b! "b")]⟩] : Path), s.op ∈ [Op.select, .union, .nestSelect, .nestUnion] →
    ∀ v ∈ s.args, ∀ n, v ≠ .name n := by
  simp

end JP
