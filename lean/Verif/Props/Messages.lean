import Verif.Props.Ex
import Verif.Props.Core
import Verif.Proof.Quote
import Verif.Proof.ProgText
import Verif.Props.Grammar
/-!
Messages and texts: C55, C56.
-/
namespace JP
open Spec

/-! ### C55 The message of MustCompile -/

/-- If Compile rejects a text, MustCompile panics with a message that holds the text as a literal of Go,
followed by the message of Compile's error. -/
theorem C55_message (env : Env) (text : Bytes) (e : CompileErr) (h : Compile env text = .err e) :
    ∃ lit, GoLiteral lit text ∧
      MustCompile env text = .panics (b! "jsonpath: Compile(" ++ lit ++ b! "): " ++ e.text env) := by
  refine ⟨_, quote_spec env text, ?_⟩
  unfold MustCompile
  rw [h]

example := C55_message Ex.env (b! "$.`\n") _ rfl

/-- The literal is a raw one for printable texts of ASCII without a backquote, and then holds the text as it is. -/
theorem C55_verbatim (env : Env) (text : Bytes) (e : CompileErr) (h : Compile env text = .err e)
    (hp : ∀ c ∈ text, 32 ≤ c.toNat ∧ c.toNat < 127 ∧ c ≠ c! '`') :
    MustCompile env text = .panics (b! "jsonpath: Compile(`" ++ text ++ b! "`): " ++ e.text env) := by
  have hq : ∀ (f : Nat) (s : Bytes), (∀ c ∈ s, 32 ≤ c.toNat ∧ c.toNat < 127 ∧ c ≠ c! '`') → canBackquoteGo f s = true := by
    intro f
    induction f with
    | zero => intros; rfl
    | succ f ih =>
      intro s hs
      cases s with
      | nil => rfl
      | cons a s =>
        obtain ⟨h1, h2, h3⟩ := hs a (by simp)
        have ha : a < 0x80 := UInt8.lt_iff_toNat_lt.2 (show a.toNat < 128 by omega)
        have hl : runeLen (a :: s) = 1 := by simp only [runeLen, if_pos ha]
        have hr : runeAt (a :: s) = a.toNat := by unfold runeAt; rw [hl]; simp only [if_pos ha]
        have h4 : a.toNat ≠ 96 := fun h => h3 (UInt8.toNat_inj.1 h)
        rw [canBackquoteGo, hl, hr, if_neg (by omega), if_neg (by omega)]
        exact ih _ fun c hc => hs c (by simp at hc; simp [hc])
  unfold MustCompile
  rw [h]
  simp only [quote, canBackquote, hq _ text hp, if_true]
  simp

example := C55_verbatim Ex.env (b! "$.a[0,#]") _ rfl (by decide)

/-- The message determines the text. -/
theorem C55_determines (env env' : Env) (text text' m : Bytes) (h : MustCompile env text = .panics m)
    (h' : MustCompile env' text' = .panics m) : text = text' := by
  obtain ⟨e, he⟩ := (C42_mustCompile env text).1.1 ⟨m, h⟩
  obtain ⟨e', he'⟩ := (C42_mustCompile env' text').1.1 ⟨m, h'⟩
  obtain ⟨lit, h1, h2⟩ := C55_message env text e he
  obtain ⟨lit', h1', h2'⟩ := C55_message env' text' e' he'
  have := Must.panics.inj ((h2.symm.trans h).trans (h'.symm.trans h2'))
  rw [List.append_assoc, List.append_assoc, List.append_assoc, List.append_assoc] at this
  exact (h1.prefix h1' (List.append_cancel_left this)).2.1

example : MustCompile Ex.env (b! "$.a[0,#]") =
    .panics (b! "jsonpath: Compile(`$.a[0,#]`): unexpected character '#' at offset 6") := rfl
example : MustCompile Ex.env (b! "$.`\n") =
    .panics (b! "jsonpath: Compile(\"$.`\\n\"): unexpected character '`' at offset 2") := rfl
/-- lex.go:277 names the character it wanted as the one before, and at the end of the text it shows a character
that the text does not have. -/
example : MustCompile Ex.env (b! "$[?") =
    .panics (b! "jsonpath: Compile(`$[?`): unexpected char '�' after '(' at offset 2") := rfl

/-! ### C56 The text of a program -/

/-- `String` of the program of a path does not panic. -/
theorem C56_total (env : Env) (text : Bytes) (p : JSONPath) (h : Compile env text = .ok p) : ∃ t, p.prog.text env = some t := by
  obtain ⟨path, -, hw, hc, -⟩ := Compile_ok h
  have ho := compile_orders hw hc
  obtain ⟨ts, h1, -⟩ := mapM_text fun o hm => by
    obtain ⟨op, x, -, ht⟩ := reads_order (ho.2 o hm)
    exact ⟨_, ht⟩
  exact ⟨_, by unfold Program.text; rw [h1]; rfl⟩

example := C56_total Ex.env (b! "$..a[?(@.b == 'x y')][1:]") _ rfl

/-- The full statement: paths whose programs have the same text have the same results. -/
def TextRule (env : Env) : Prop :=
  ∀ (a b : Bytes) (p q : JSONPath), Compile env a = .ok p → Compile env b = .ok q → p.prog.text env = q.prog.text env →
    ∀ oracle root, Eval env oracle p root = Eval env oracle q root

/-- It is false: the bound of a slice has the same text as literal and as expression, but the expression counts
as 0. -/
theorem C56_text_fails (env : Env) : ¬ TextRule env := by
  intro h
  have h0 := h (b! "$[1:]") (b! "$[(1):]") _ _ rfl rfl rfl (fun _ _ => List.range) (.arr [.int 7, .int 8])
  have h1 : ∀ p, Compile env (b! "$[1:]") = .ok p → Eval env (fun _ _ => List.range) p (.arr [.int 7, .int 8]) = some (.ok (some [.int 8])) := by
    intro p hp
    cases hp
    exact run_of_runFuel 10 _ rfl
  have h2 : ∀ p, Compile env (b! "$[(1):]") = .ok p → Eval env (fun _ _ => List.range) p (.arr [.int 7, .int 8]) = some (.ok (some [.int 7, .int 8])) := by
    intro p hp
    cases hp
    exact run_of_runFuel 10 _ rfl
  rw [h1 _ rfl, h2 _ rfl] at h0
  simp at h0

/-- It holds if no slice has an expression for a bound; then the programs are even equal. -/
theorem C56_text_partial (env : Env) (a b : Bytes) (p q : JSONPath) (pa pb : Path) (ha : Compile env a = .ok p)
    (hb : Compile env b = .ok q) (h1 : parsePath env a = .ok pa) (h2 : parsePath env b = .ok pb) (l1 : pa.LiteralSlices)
    (l2 : pb.LiteralSlices) (h : p.prog.text env = q.prog.text env) :
    p.prog = q.prog ∧ ∀ oracle root, Eval env oracle p root = Eval env oracle q root := by
  have plain : ∀ {a : Bytes} {p : JSONPath} {pa : Path}, Compile env a = .ok p → parsePath env a = .ok pa → pa.LiteralSlices →
      OrdersOk p.prog ∧ Used p.prog ∧ ∀ v ∈ p.prog.vals, v.Plain := by
    intro a p pa ha h1 l1
    obtain ⟨path, hp, hw, hc, -⟩ := Compile_ok ha
    rw [h1] at hp
    cases hp
    have ht := compile_tab pa hw hc
    refine ⟨compile_orders hw hc, fun i hi => ?_, fun v hv => ?_⟩
    · obtain ⟨k, j, -, h2, h3⟩ := ht.used i _ (List.getElem?_eq_getElem hi)
      exact ⟨j, List.mem_of_getElem? h2, h3⟩
    · exact path_plain ((C30_trees env pa).1 ⟨a, h1⟩) l1 v (ht.sub.subset hv)
  obtain ⟨o1, u1, p1⟩ := plain ha h1 l1
  obtain ⟨o2, u2, p2⟩ := plain hb h2 l2
  have he := program_text_inj env o1 o2 u1 u2 p1 p2 h
  exact ⟨he, fun oracle root => by unfold Eval; rw [he]⟩

example : ∃ p, Compile Ex.env (b! "$..a[?(@.b == 'x y')][1:]") = .ok p ∧
    p.prog.text Ex.env = some (b! "a b \"x y\" [1:] Nest.4 ID[0] NestMember.1 Rep.1 For.12 Current ID[1] Dot.2 String[2] EQ.2 Filter.1 Rep.5 Bounds[3] Select.1") :=
  ⟨_, rfl, by krfl⟩
example : ∃ pa, parsePath Ex.env (b! "$..a[?(@.b == 'x y')][1:]") = .ok pa ∧ pa.LiteralSlices := by
  refine ⟨_, rfl, ?_⟩
  intro s hs sl hsl
  have hs : s ∈ [⟨.nestMember, [.name (b! "a")]⟩, ⟨.filter, [.expr (.inner .eq [.inner .dot [.current, .name (b! "b")], .str (b! "x y")])]⟩,
      (⟨.select, [.slice ⟨some (.int 1), none, none⟩]⟩ : Step)] := hs
  simp only [List.mem_cons, List.not_mem_nil, or_false] at hs
  rcases hs with rfl | rfl | rfl <;> simp at hsl
  subst hsl
  refine ⟨?_, ?_, ?_⟩ <;> intro e <;> simp

end JP
