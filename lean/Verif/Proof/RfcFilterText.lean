import Verif.Spec.RfcFilter
import Verif.Proof.RfcSteps
import Verif.Proof.Print
/-! Texts of filters of RFC 9535, and the expressions they are read as. -/
namespace JP.Rfc
open Spec

variable {env : Env}

/-- An integer. -/
def intTree (i : Int) : Expr := if i < 0 then .inner .neg [.int (Int64.ofInt (-i))] else .int (Int64.ofInt i)

/-- A segment of a singular query. -/
def singleTree (e : Expr) : Single → Expr
  | .dot s => .inner .dot [e, .name s]
  | .name s => .inner .index [e, .str s]
  | .index i => .inner .index [e, intTree i]

/-- A singular query. -/
def singularTree (q : Singular) : Expr := q.segs.foldl singleTree (if q.fromRoot then .root else .current)

/-- A literal. -/
def litTree : Lit → Expr
  | .null => .null
  | .bool b => .bool b
  | .int i => intTree i
  | .str s => .str s

/-- A comparable. -/
def operandTree : Operand → Expr
  | .lit l => litTree l
  | .query q => singularTree q

/-- An operator. -/
def CompOp.op : CompOp → Op
  | .eq => .eq
  | .ne => .ne
  | .lt => .lt
  | .le => .le
  | .gt => .gt
  | .ge => .ge

/-- A logical expression. -/
def logicalTree : Logical → Expr
  | .test q => singularTree q
  | .compare op a b => .inner op.op [operandTree a, operandTree b]
  | .not e => .inner .not [logicalTree e]
  | .and a b => .inner .and [logicalTree a, logicalTree b]
  | .or a b => .inner .or [logicalTree a, logicalTree b]

/-- A token that may be followed by a dot. -/
def Dotted (pf : Bytes → Option F64) (t : Token) : Prop := ∀ w b, Word pf t w [] → Word pf t w (c! '.' :: b)

theorem dotted_punct {pf : Bytes → Option F64} {c : UInt8} (hc : c ∈ b! "()[]@$.,~*%+-/") : Dotted pf (.x c) := by
  intro w b h
  cases h with
  | expr _ _ _ h =>
    refine .expr _ _ _ ?_
    generalize hl : Lexeme.plain (.ch c) = lx at h
    cases h with
    | punct c' _ h => simp [Lexeme.plain] at hl; subst hl; exact .punct _ _ h
    | alone c' d _ h =>
      simp [Lexeme.plain] at hl
      subst hl
      rcases h with ⟨rfl, _⟩ | ⟨rfl, _⟩ | ⟨rfl, _⟩ | ⟨rfl, _⟩ | ⟨rfl, _⟩ | ⟨rfl, _⟩ <;> exact absurd hc (by decide)
    | _ => simp [Lexeme.plain] at hl

theorem dotted_name {pf : Bytes → Option F64} {s : Bytes} : Dotted pf (.expr (nameTok s)) := by
  intro w b h
  cases h with
  | expr _ _ _ h =>
    refine .expr _ _ _ ?_
    generalize hl : nameTok s = lx at h
    cases h with
    | name c w _ h1 h2 h3 => exact .name c w _ h1 h2 (by simp [Spec.Stops, LetterDigit, Letter, Digit])
    | _ => simp [Lexeme.plain] at hl

theorem join_dotted {us : List Token} {a b : Bytes} {ts : List Token} (h1 : Written env.parseFloat ts a)
    (h2 : Written env.parseFloat us (c! '.' :: b)) (ho : Outside us) (hl : ∀ t, ts.getLast? = some t → Dotted env.parseFloat t) :
    Written env.parseFloat (ts ++ us) (a ++ c! '.' :: b) := by
  induction h1 with
  | nil g hg => exact h2.gap hg ho
  | cons t ts g w next hg hw hr ih =>
    rw [List.append_assoc, List.append_assoc]
    refine .cons t _ g w _ hg ?_ (ih ?_)
    · cases next with
      | nil =>
        have := hr.white_inv White.nil
        subst this
        exact hl t rfl _ _ hw
      | cons d next => exact hw.congr rfl
    · intro t' ht'
      refine hl t' ?_
      cases ts with
      | nil => cases ht'
      | cons x ts => rw [List.getLast?_cons_cons]; exact ht'

theorem nat_back {n : Nat} (h : n < 2 ^ 53) : Written env.parseFloat [.expr (intTok (Int64.ofInt n))] (writeNat n) := by
  obtain ⟨hd, he⟩ := writeNat_ok n
  have := ExprWord.int (pf := env.parseFloat) _ [] hd (.nil _) (by rw [he]; omega)
  rw [he] at this
  exact written_one this

theorem int_back {i : Int} (h : InRange i) : ∃ ts, Written env.parseFloat ts (writeInt i) ∧ GUnary env.reValid ts (intTree i) ∧ Outside ts := by
  unfold writeInt intTree
  split
  · rename_i hi
    have := nat_back (env := env) (n := i.natAbs) (by have := h.1; omega)
    rw [show ((i.natAbs : Nat) : Int) = -i by omega] at this
    exact ⟨_, .punctX (by decide) this, .neg _ _ (.primary _ _ (.atom _ _ (.int _))), outside_expr _ _⟩
  · have := nat_back (env := env) (n := i.natAbs) (by have := h.2; omega)
    rw [show ((i.natAbs : Nat) : Int) = i by omega] at this
    exact ⟨_, this, .primary _ _ (.atom _ _ (.int _)), outside_expr _ _⟩

/-- What is written is a primary expression that may be followed by a dot. -/
def BackP (env : Env) (w : Bytes) (e : Expr) : Prop :=
  ∃ ts, Written env.parseFloat ts w ∧ GPrimary env.reValid ts e ∧ ∀ t, ts.getLast? = some t → Dotted env.parseFloat t

theorem bracket_back {w : Bytes} {e i : Expr} {ts us : List Token} {v : Bytes} (h1 : Written env.parseFloat ts w) (g1 : GPrimary env.reValid ts e)
    (h2 : Written env.parseFloat us v) (g2 : GExpr env.reValid 0 us i) : BackP env (w ++ bracket v) (.inner .index [e, i]) := by
  have hc : Written env.parseFloat [.x (c! ']')] (b! "]") := .punctX (by decide) (.nil _ White.nil)
  have w3 := Written.punctX (pf := env.parseFloat) (c := c! '[') (by decide) (h2.join hc (neutral_of (by decide)) (outside_expr _ _))
  refine ⟨_, h1.join w3 (neutral_of (by decide)) (outside_expr _ _), .index _ _ _ _ g1 g2, fun t ht => ?_⟩
  rw [← List.cons_append, ← List.append_assoc, List.getLast?_concat] at ht
  cases ht
  exact dotted_punct (by decide)

theorem single_back {w : Bytes} {e : Expr} (h : BackP env w e) {s : Single} (hs : s.Valid) : BackP env (w ++ singleText s) (singleTree e s) := by
  obtain ⟨ts, h1, g1, hl⟩ := h
  cases s with
  | dot s =>
    have w3 := Written.punctX (pf := env.parseFloat) (c := c! '.') (by decide) (written_one (ident_word hs))
    refine ⟨_, join_dotted h1 w3 (outside_expr _ _) hl, .dot _ _ _ g1, fun t ht => ?_⟩
    rw [List.getLast?_append] at ht
    cases ht
    exact dotted_name
  | name s => exact bracket_back h1 g1 (written_one (strWordX.mpr (writeStr_lit s))) (.unary _ _ _ (.primary _ _ (.atom _ _ (.str s))))
  | index i =>
    obtain ⟨us, h2, g2, _⟩ := int_back (env := env) (i := i) hs
    exact bracket_back h1 g1 h2 (.unary _ _ _ g2)

theorem singles_back : ∀ (l : List Single) {w : Bytes} {e : Expr}, BackP env w e → (∀ s ∈ l, s.Valid) →
    BackP env (w ++ (l.map singleText).flatten) (l.foldl singleTree e)
  | [], w, e, h, _ => by simpa using h
  | s :: l, w, e, h, hl => by
    have := singles_back l (single_back h (hl s (by simp))) (fun s' hs => hl s' (by simp [hs]))
    rw [List.append_assoc] at this
    simpa using this

theorem singular_back {q : Singular} (h : q.Valid) : BackP env (singularText q) (singularTree q) := by
  have h0 : BackP env [if q.fromRoot then c! '$' else c! '@'] (if q.fromRoot then .root else .current) := by
    cases q.fromRoot with
    | true =>
      refine ⟨_, .punctX (c := c! '$') (by decide) (.nil _ White.nil), .atom _ _ .root, fun t ht => ?_⟩
      cases ht
      exact dotted_punct (by decide)
    | false =>
      refine ⟨_, .punctX (c := c! '@') (by decide) (.nil _ White.nil), .atom _ _ .current, fun t ht => ?_⟩
      cases ht
      exact dotted_punct (by decide)
  exact singles_back q.segs h0 h

/-- What is written is a unary expression. -/
def BackU (env : Env) (w : Bytes) (e : Expr) : Prop := ∃ ts, Written env.parseFloat ts w ∧ GUnary env.reValid ts e ∧ Outside ts

theorem operand_back {a : Operand} (h : a.Valid) : BackU env (operandText a) (operandTree a) := by
  cases a with
  | query q =>
    obtain ⟨ts, h1, g1, _⟩ := singular_back (env := env) (q := q) h
    exact ⟨ts, h1, .primary _ _ g1, outside_primary g1⟩
  | lit l =>
    have atom : ∀ {w : Bytes} {e : Expr} {lx : Lexeme}, ExprWord env.parseFloat lx w [] → GAtom env.reValid [.expr lx] e → BackU env w e :=
      fun h g => ⟨_, written_one h, .primary _ _ (.atom _ _ g), outside_expr _ _⟩
    cases l with
    | null => exact atom (.name (c! 'n') (b! "ull") [] (by simp [Letter]) (by simp [All, LetterDigit, Letter]) (.nil _)) .nul
    | bool b =>
      cases b with
      | true => exact atom (.name (c! 't') (b! "rue") [] (by simp [Letter]) (by simp [All, LetterDigit, Letter]) (.nil _)) .tru
      | false => exact atom (.name (c! 'f') (b! "alse") [] (by simp [Letter]) (by simp [All, LetterDigit, Letter]) (.nil _)) .fls
    | int i => exact int_back h
    | str s => exact atom (strWordX.mpr (writeStr_lit s)) (.str s)

theorem opText_ok (op : CompOp) : ∃ lx k, OpTok lx op.op k ∧ ExprWord env.parseFloat lx (opText op) [] := by
  have h : ∀ op : Op, Binary op → ∃ lx k, OpTok lx op k ∧ ExprWord env.parseFloat lx (writeOp op) [] := fun op h => writeOp_ok h
  cases op
  · exact h .eq ⟨_, .eq⟩
  · exact h .ne ⟨_, .ne⟩
  · exact h .lt ⟨_, .lt⟩
  · exact h .le ⟨_, .le⟩
  · exact h .gt ⟨_, .gt⟩
  · exact h .ge ⟨_, .ge⟩

theorem logical_back : ∀ {e : Logical}, e.Valid → Back env (logicalText e) (logicalTree e)
  | .test q, h => by
    obtain ⟨ts, h1, g1, _⟩ := singular_back (env := env) (q := q) h
    exact .primary h1 g1
  | .compare op a b, h => by
    obtain ⟨ta, w1, g1, _⟩ := operand_back (env := env) h.1
    obtain ⟨tb, w2, g2, o2⟩ := operand_back (env := env) h.2
    obtain ⟨lx, k, ho, hw⟩ := opText_ok (env := env) op
    exact ⟨_, w1.sep ((written_one hw).sep w2 white_blank (by simp) o2) white_blank (by simp) (outside_expr _ _),
      .binary 0 _ _ lx op.op k _ _ (Nat.zero_le _) ho (.unary _ _ _ g1) (.unary _ _ _ g2)⟩
  | .not e, h => by
    obtain ⟨ts, h3, h4, ⟨us, rfl⟩, _⟩ := (logical_back (e := e) h).inParen
    exact ⟨.x (c! '!') :: _, .cons _ _ [] [c! '!'] _ White.nil (.expr _ _ _ (.alone _ (b! "=") _ (by simp) (by simp [Spec.Stops]))) h3,
      .unary _ _ _ (.not _ _ (.primary _ _ (.atom _ _ h4)))⟩
  | .and a b, h => by
    obtain ⟨ta, w1, g1, ⟨ua, rfl⟩, _⟩ := (logical_back (e := a) h.1).inParen
    obtain ⟨tb, w2, g2, ⟨ub, rfl⟩, _⟩ := (logical_back (e := b) h.2).inParen
    obtain ⟨lx, k, ho, hw⟩ := writeOp_ok (env := env) (op := .and) ⟨_, .and⟩
    exact ⟨_, w1.sep ((written_one hw).sep w2 white_blank (by simp) (outside_expr _ _)) white_blank (by simp) (outside_expr _ _),
      .binary 0 _ _ lx .and k _ _ (Nat.zero_le _) ho (.unary _ _ _ (.primary _ _ (.atom _ _ g1))) (.unary _ _ _ (.primary _ _ (.atom _ _ g2)))⟩
  | .or a b, h => by
    obtain ⟨ta, w1, g1, ⟨ua, rfl⟩, _⟩ := (logical_back (e := a) h.1).inParen
    obtain ⟨tb, w2, g2, ⟨ub, rfl⟩, _⟩ := (logical_back (e := b) h.2).inParen
    obtain ⟨lx, k, ho, hw⟩ := writeOp_ok (env := env) (op := .or) ⟨_, .or⟩
    exact ⟨_, w1.sep ((written_one hw).sep w2 white_blank (by simp) (outside_expr _ _)) white_blank (by simp) (outside_expr _ _),
      .binary 0 _ _ lx .or k _ _ (Nat.zero_le _) ho (.unary _ _ _ (.primary _ _ (.atom _ _ g1))) (.unary _ _ _ (.primary _ _ (.atom _ _ g2)))⟩

/-- The steps for a part. -/
inductive PartStep : Part → Step → Prop
  | plain {seg st} : StepFor seg st → PartStep (.plain seg) st
  | child (e) : PartStep (.child e) ⟨.filter, [.expr (logicalTree e)]⟩

theorem filter_parse {w : Bytes} {e : Expr} (h : Back env w e) :
    parsePath env (c! '$' :: (b! "[?" ++ (paren w ++ b! "]"))) = .ok [⟨.filter, [.expr e]⟩] := by
  obtain ⟨ts, _, w1, g1⟩ := h.gparen
  have hs : Written env.parseFloat (.path (.plain .filter) :: ts) (b! "?(" ++ (w ++ b! ")")) := .cons _ _ [] (b! "?(") _ White.nil (.path _ _ _ (.filter _)) w1
  have hb := bracketed hs
  have hg : GSteps env.reValid _ [⟨.filter, [.expr e]⟩] := .cons _ _ [] [] (.sub _ _ (.filter _ _ g1)) .nil
  have hp := Written.punctP (pf := env.parseFloat) (c := c! '$') (by decide) hb
  have ht : c! '$' :: bracket (b! "?(" ++ (w ++ b! ")")) = c! '$' :: (b! "[?" ++ (paren w ++ b! "]")) := by simp [bracket, paren]
  rw [ht] at hp
  exact parsePath_iff.mpr ⟨_, hp, _, hg, by simp⟩

theorem part_parse {part : Part} {t : Bytes} (h : PartText part t) (hv : part.Valid) (hd : ∀ e, part ≠ .descend e)
    (hl : ∀ seg, part = .plain seg → seg.Lone) : ∃ st, PartStep part st ∧ parsePath env (c! '$' :: t) = .ok [st] := by
  cases h with
  | plain h =>
    obtain ⟨st, h1, h2⟩ := segment_parse (env := env) h hv.1 hv.2 (hl _ rfl)
    exact ⟨st, .plain h1, h2⟩
  | child e => exact ⟨_, .child e, filter_parse (logical_back hv)⟩
  | descend e => exact absurd rfl (hd e)

theorem parts_parse {q : List Part} {text : Bytes} (h : PartsText q text) (hv : ∀ part ∈ q, part.Valid) (hd : ∀ e, Part.descend e ∉ q)
    (hl : ∀ seg, Part.plain seg ∈ q → seg.Lone) : ∃ ss, All2 PartStep q ss ∧ parsePath env text = .ok ss := by
  obtain ⟨ts, ht, rfl⟩ := h
  have : ∃ ss, All2 PartStep q ss ∧ All2 (fun piece s => parsePath env (c! '$' :: piece) = .ok [s]) ts ss := by
    induction ht with
    | nil => exact ⟨[], .nil, .nil⟩
    | cons h _ ih =>
      obtain ⟨ss, h1, h2⟩ := ih (fun seg hs => hv seg (by simp [hs])) (fun e he => hd e (by simp [he])) (fun seg hs => hl seg (by simp [hs]))
      obtain ⟨st, h3, h4⟩ := part_parse (env := env) h (hv _ (by simp)) (fun e he => hd e (by simp [he])) (fun seg hs => hl seg (by simp [hs]))
      exact ⟨st :: ss, .cons h3 h1, .cons h4 h2⟩
  obtain ⟨ss, h1, h2⟩ := this
  exact ⟨ss, h1, (C93_pieces env _ _).2 ⟨b! "$", ts, rfl, rfl, h2⟩⟩

end JP.Rfc
