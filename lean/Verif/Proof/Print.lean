import Verif.Spec.Print
import Verif.Proof.Layout
import Verif.Proof.Decimal
/-!
Trees are read back as they were written, and only trees are read.
-/
namespace JP
open Spec

variable {env : Env} {lim : Bool}

/-! ## Literals -/

theorem digit_of {n : Nat} (h : n < 10) : Digit (UInt8.ofNat (48 + n)) ∧ (UInt8.ofNat (48 + n)).toNat - 48 = n := by
  have : (UInt8.ofNat (48 + n)).toNat = 48 + n := by simp; omega
  refine ⟨⟨?_, ?_⟩, by omega⟩ <;> rw [UInt8.le_iff_toNat_le, this] <;> simp <;> omega

theorem writeNat_ok (n : Nat) : Digits (writeNat n) ∧ decimal (writeNat n) = n := by
  induction n using Nat.strongRecOn with
  | _ n ih =>
    rw [writeNat]
    by_cases h : n < 10
    · rw [if_pos h]
      obtain ⟨h1, h2⟩ := digit_of h
      refine ⟨⟨by simp, ?_⟩, ?_⟩
      · intro c hc; rw [List.mem_singleton] at hc; subst hc; exact h1
      · simp only [decimal, List.foldl_cons, List.foldl_nil, h2]; omega
    · rw [if_neg h]
      obtain ⟨h1, h2⟩ := digit_of (Nat.mod_lt n (by decide : 10 > 0))
      obtain ⟨h3, h4⟩ := ih (n / 10) (by omega)
      refine ⟨⟨by simp, ?_⟩, ?_⟩
      · intro c hc
        rcases List.mem_append.mp hc with hc | hc
        · exact h3.2 c hc
        · rw [List.mem_singleton] at hc; subst hc; exact h1
      · unfold decimal at h4 ⊢
        rw [List.foldl_append, h4]
        simp only [List.foldl_cons, List.foldl_nil, h2]
        omega

theorem int_nat {n : Int64} (h : 0 ≤ n.toInt) : n = Int64.ofNat n.toInt.natAbs ∧ n.toInt.natAbs < 2 ^ 63 := by
  have := Int64.toInt_lt n
  have hlt : n.toInt.natAbs < 2 ^ 63 := by omega
  exact ⟨by rw [← Int64.toInt_inj, Int64.toInt_ofNat_of_lt hlt]; omega, hlt⟩

theorem writeInt_word {n : Int64} (h : TreeInt true n) : PathWord (intTok n) (writeInt n.toInt) [] := by
  rw [intWord]
  have h := h rfl
  obtain ⟨hd, he⟩ := writeNat_ok n.toInt.natAbs
  unfold writeInt
  by_cases hz : n.toInt < 0
  · rw [if_pos hz]
    refine .inr ⟨[], _, White.nil, hd, by rw [he]; omega, rfl, ?_⟩
    rw [he, ← Int64.toInt_inj, Int64.toInt_neg, Int64.toInt_ofNat_of_lt (by omega)]
    rw [Int.bmod_eq_of_le (by omega) (by omega)]
    omega
  · rw [if_neg hz]
    obtain ⟨h1, h2⟩ := int_nat (n := n) (by omega)
    exact .inl ⟨hd, by rw [he]; exact h2, by rw [he]; exact h1⟩

theorem writeReal_lit {f : F64} (hn : f.neg? = false) : ∃ e : ℤ, e.natAbs < 100000 ∧ RealLit (writeReal f) f.val e := by
  have key : ∀ m b : Nat, 1 ≤ b → ∃ e : ℤ, e.natAbs < 100000 ∧ RealLit
      (if 1075 ≤ b then writeNat (m * 2 ^ (b - 1075)) ++ b! ".0" else writeNat (m * 5 ^ (1075 - b)) ++ (b! ".e-" ++ writeNat (1075 - b)))
      ((m : ℚ) * 2 ^ ((b : ℤ) - 1075)) e := by
    intro m b hb
    split
    · next h =>
      refine ⟨0, by decide, ?_⟩
      obtain ⟨h1, h2⟩ := writeNat_ok (m * 2 ^ (b - 1075))
      have := RealLit.mk (writeNat (m * 2 ^ (b - 1075))) (b! "0") [] 0 h1 (by simp [All, Digit]) .none
      have hv : ((m : ℚ) * 2 ^ ((b : ℤ) - 1075)) = decimal (writeNat (m * 2 ^ (b - 1075)) ++ b! "0") / 10 ^ (b! "0").length * 10 ^ (0 : ℤ) := by
        have hd : decimal (writeNat (m * 2 ^ (b - 1075)) ++ b! "0") = 10 * (m * 2 ^ (b - 1075)) := by
          have : decimal (writeNat (m * 2 ^ (b - 1075)) ++ b! "0") = 10 * decimal (writeNat (m * 2 ^ (b - 1075))) + 0 := by
            unfold decimal
            rw [List.foldl_append]
            rfl
          rw [this, h2, Nat.add_zero]
        rw [hd]
        obtain ⟨d, rfl⟩ : ∃ d, b = 1075 + d := ⟨b - 1075, by omega⟩
        have e1 : ((1075 + d : Nat) : ℤ) - 1075 = d := by push_cast; ring
        rw [e1, zpow_natCast, show 1075 + d - 1075 = d by omega]
        push_cast
        simp
      rw [hv]
      exact this
    · next h =>
      obtain ⟨h1, h2⟩ := writeNat_ok (m * 5 ^ (1075 - b))
      obtain ⟨h3, h4⟩ := writeNat_ok (1075 - b)
      refine ⟨-decimal (writeNat (1075 - b)), by rw [h4]; omega, ?_⟩
      have := RealLit.mk (writeNat (m * 5 ^ (1075 - b))) [] (c! 'e' :: c! '-' :: writeNat (1075 - b)) _ h1 (by simp [All]) (.neg _ _ (.inl rfl) h3)
      have hv : ((m : ℚ) * 2 ^ ((b : ℤ) - 1075)) =
          decimal (writeNat (m * 5 ^ (1075 - b)) ++ []) / 10 ^ ([] : Bytes).length * 10 ^ (-decimal (writeNat (1075 - b)) : ℤ) := by
        rw [List.append_nil, h2, h4]
        obtain ⟨d, hd⟩ : ∃ d, 1075 = b + d := ⟨1075 - b, by omega⟩
        have e1 : (b : ℤ) - 1075 = -(d : ℤ) := by omega
        have e2 : 1075 - b = d := by omega
        rw [e1, e2, zpow_neg, zpow_neg, zpow_natCast, zpow_natCast]
        push_cast
        have : (10 : ℚ) ^ d = 2 ^ d * 5 ^ d := by rw [← mul_pow]; norm_num
        rw [this]
        have h5 : (5 : ℚ) ^ d ≠ 0 := by positivity
        have h2 : (2 : ℚ) ^ d ≠ 0 := by positivity
        simp only [List.length_nil, pow_zero, div_one]
        field_simp
      rw [hv]
      exact this
  have hval : f.val = F64.magVal f.mag := by unfold F64.val; rw [hn]; rfl
  rw [hval]
  unfold writeReal F64.magVal
  dsimp only
  by_cases h : f.mag < 2 ^ 52
  · simp only [if_pos h]
    exact key f.mag 1 (by omega)
  · simp only [if_neg h]
    exact key _ _ (by omega)

theorem writeReal_ok {f : F64} (hf : f.Finite) (hn : f.neg? = false) : RealText (writeReal f) [] ∧ env.parseFloat (writeReal f) = some f := by
  obtain ⟨e, he, hl⟩ := writeReal_lit hn
  refine ⟨real_text hl, ?_⟩
  obtain ⟨g, g1, g2, g3, g4⟩ := (parseFloat_decimal (env := env) (.unsigned _ _ _ hl.unsigned) (.inl he)).2 (F64.val_lt_limit hf)
  obtain ⟨-, g5⟩ := g3.exact hf rfl
  rw [g1]
  congr 1
  refine F64.ext_mag (by rw [g4, hn]) ?_
  have := congrArg abs g5
  rw [F64.abs_val, F64.abs_val] at this
  exact F64.magVal_mono.injective this

theorem writeRe_body : ∀ {s : Bytes}, s.getLast? ≠ some (c! '\\') →
    ReBody (s.flatMap (fun c => if c = c! '/' then b! "\\/" else [c])) s
  | [], _ => .nil
  | c :: s, h => by
    rw [List.flatMap_cons]
    have hs : s.getLast? ≠ some (c! '\\') := by
      cases s with
      | nil => simp
      | cons d s => rw [List.getLast?_cons_cons] at h; exact h
    have ih := writeRe_body hs
    by_cases hc : c = c! '/'
    · subst hc
      rw [if_pos rfl]
      exact .slash _ _ ih
    · rw [if_neg hc]
      by_cases hb : c = c! '\\'
      · subst hb
        cases s with
        | nil => simp at h
        | cons d s =>
          rw [List.flatMap_cons] at ih ⊢
          by_cases hd : d = c! '/'
          · subst hd
            rw [if_pos rfl] at ih ⊢
            exact .backslash (c! '\\') _ _ (by decide) ih
          · rw [if_neg hd] at ih ⊢
            exact .backslash d _ _ hd ih
      · exact .plain _ _ _ hc hb ih

theorem writeStr_lit (v : Bytes) : StrLit (writeStr (c! '"') v) v := (writeStr_denotes (.inl rfl) v).body.lit (.inl rfl)

theorem writeOp_ok {op : Op} (h : Binary op) : ∃ lx k, OpTok lx op k ∧ ExprWord env.parseFloat lx (writeOp op) [] := by
  have : OpText (writeOp op) op := by
    obtain ⟨w, h⟩ := h
    cases h <;> constructor
  obtain ⟨lx, h1, h2⟩ := this.word (pf := env.parseFloat)
  exact ⟨lx, _, h1, h2⟩

/-! ## Expressions -/

/-- What is written is an expression. -/
def Back (env : Env) (w : Bytes) (e : Expr) : Prop := ∃ ts, Written env.parseFloat ts w ∧ GExpr env.reValid 0 ts e

theorem Back.atom {w : Bytes} {e : Expr} {ts : List Token} (h1 : Written env.parseFloat ts w) (h2 : GAtom env.reValid ts e) : Back env w e :=
  ⟨ts, h1, gatom_expr h2⟩

theorem Back.primary {w : Bytes} {e : Expr} {ts : List Token} (h1 : Written env.parseFloat ts w) (h2 : GPrimary env.reValid ts e) : Back env w e :=
  ⟨ts, h1, .unary _ _ _ (.primary _ _ h2)⟩

theorem Back.inParen {w : Bytes} {e : Expr} (h : Back env w e) :
    ∃ ts, Written env.parseFloat ts (paren w) ∧ GAtom env.reValid ts e ∧ (∃ us, ts = .x (c! '(') :: us) ∧ ∀ t, ts.getLast? = some t → Last t := by
  obtain ⟨ts, h1, h2⟩ := h
  have hc : Written env.parseFloat [.x (c! ')')] (b! ")") := .punctX (by decide) (.nil _ White.nil)
  refine ⟨_, .punctX (by decide) (h1.join hc (neutral_of (by decide)) (outside_expr _ _)), .paren _ _ h2, ⟨_, rfl⟩, ?_⟩
  intro t ht
  rw [← List.cons_append, List.getLast?_concat] at ht
  cases ht
  exact .inr rfl

theorem ident_word {s : Bytes} (h : Ident s) : ExprWord env.parseFloat (nameTok s) s [] := by
  obtain ⟨c, w, rfl, h1, h2⟩ := h
  exact .name _ _ _ h1 h2 (.nil _)

theorem white_blank : White (b! " ") := by intro c hc; simp at hc; subst hc; exact .inl rfl

theorem writeInner_binary {op : Op} (h : Binary op) (a b : Bytes) :
    writeInner op [a, b] = paren a ++ (b! " " ++ (writeOp op ++ (b! " " ++ paren b))) := by
  obtain ⟨w, h⟩ := h
  cases h <;> rfl

mutual
theorem Spec.Tree.back : ∀ {e : Expr}, Tree env true e → Back env (writeExpr e) e
  | _, .int n h => by
    obtain ⟨h1, h2⟩ := int_nat h
    obtain ⟨hd, he⟩ := writeNat_ok n.toInt.natAbs
    have := ExprWord.int (pf := env.parseFloat) _ [] hd (.nil _) (by rw [he]; exact h2)
    rw [he, ← h1] at this
    exact .atom (written_one this) (.int n)
  | _, .float f h1 h2 => by
    obtain ⟨h3, h4⟩ := writeReal_ok (env := env) h1 h2
    exact .atom (written_one (.real _ _ _ h3 h4)) (.real f)
  | _, .str s => .atom (written_one (strWordX.mpr (writeStr_lit s))) (.str s)
  | _, .bool true => .atom (written_one (.name (c! 't') (b! "rue") [] (by simp [Letter]) (by simp [All, LetterDigit, Letter]) (.nil _))) .tru
  | _, .bool false => .atom (written_one (.name (c! 'f') (b! "alse") [] (by simp [Letter]) (by simp [All, LetterDigit, Letter]) (.nil _))) .fls
  | _, .null => .atom (written_one (.name (c! 'n') (b! "ull") [] (by simp [Letter]) (by simp [All, LetterDigit, Letter]) (.nil _))) .nul
  | _, .name s h h1 h2 h3 => .atom (written_one (ident_word h)) (.name s h1 h2 h3)
  | _, .current => .atom (.punctX (by decide) (.nil _ White.nil)) .current
  | _, .root => .atom (.punctX (by decide) (.nil _ White.nil)) .root
  | _, .re s h1 h2 => .atom (written_re (writeRe_body (h2 rfl))) (.re s h1)
  | _, .unary op e h1 h2 => by
    obtain ⟨ts, h3, h4, ⟨us, rfl⟩, _⟩ := (h2.back).inParen
    have gu := GUnary.primary _ _ (.atom _ _ h4)
    rcases h1 with rfl | rfl
    · exact ⟨_, .punctX (by decide) h3, .unary _ _ _ (.neg _ _ gu)⟩
    · exact ⟨.x (c! '!') :: _, .cons _ _ [] [c! '!'] _ White.nil (.expr _ _ _ (.alone _ (b! "=") _ (by simp) (by simp [Spec.Stops]))) h3,
        .unary _ _ _ (.not _ _ gu)⟩
  | _, .binary op a b h1 h2 h3 => by
    obtain ⟨ta, w1, g1, ⟨ua, rfl⟩, _⟩ := (h2.back).inParen
    obtain ⟨tb, w2, g2, ⟨ub, rfl⟩, _⟩ := (h3.back).inParen
    obtain ⟨lx, k, ho, hw⟩ := writeOp_ok (env := env) h1
    refine ⟨_, ?_, .binary 0 _ _ lx op k _ _ (Nat.zero_le _) ho (.unary _ _ _ (.primary _ _ (.atom _ _ g1))) (.unary _ _ _ (.primary _ _ (.atom _ _ g2)))⟩
    rw [writeExpr, writeExprs, writeExprs, writeExprs, writeInner_binary h1]
    exact w1.sep ((written_one hw).sep w2 white_blank (by simp) (outside_expr _ _)) white_blank (by simp) (outside_expr _ _)
  | _, .call f es h1 h2 => by
    obtain ⟨us, w2, g2⟩ := h2.back
    have hc : Written env.parseFloat [.x (c! ')')] (b! ")") := .punctX (by decide) (.nil _ White.nil)
    have w3 := Written.punctX (pf := env.parseFloat) (c := c! '(') (by decide) (w2.join hc (neutral_of (by decide)) (outside_expr _ _))
    cases h1 with
    | name _ h3 n1 n2 n3 =>
      exact .primary ((written_one (ident_word h3)).join w3 (neutral_of (by decide)) (outside_expr _ _))
        (.call [_] f us es (.atom _ _ (.name f n1 n2 n3)) g2)
  | _, .index e i h1 h2 => by
    obtain ⟨ta, w1, g1, ⟨ua, rfl⟩, _⟩ := (h1.back).inParen
    obtain ⟨ti, w2, g2⟩ := h2.back
    have hc : Written env.parseFloat [.x (c! ']')] (b! "]") := .punctX (by decide) (.nil _ White.nil)
    have w3 := Written.punctX (pf := env.parseFloat) (c := c! '[') (by decide) (w2.join hc (neutral_of (by decide)) (outside_expr _ _))
    exact .primary (w1.join w3 (neutral_of (by decide)) (outside_expr _ _)) (.index _ _ _ _ (.atom _ _ g1) g2)
  | _, .dot e s h1 h2 => by
    obtain ⟨ta, w1, g1, ⟨ua, rfl⟩, hl⟩ := (h1.back).inParen
    have w3 := Written.punctX (pf := env.parseFloat) (c := c! '.') (by decide) (written_one (ident_word h2))
    exact .primary (w1.join_dot w3 (outside_expr _ _) hl) (.dot _ _ _ (.atom _ _ g1))
  | _, .array es h => by
    obtain ⟨us, w2, g2⟩ := h.back
    have hc : Written env.parseFloat [.x (c! ']')] (b! "]") := .punctX (by decide) (.nil _ White.nil)
    exact .atom (Written.punctX (by decide) (w2.join hc (neutral_of (by decide)) (outside_expr _ _))) (.array _ _ g2)
theorem Spec.Trees.back : ∀ {es : List Expr}, Trees env true es →
    ∃ ts, Written env.parseFloat ts (commas (writeExprs es)) ∧ GList env.reValid ts es
  | _, .nil => ⟨[], .nil _ White.nil, .nil⟩
  | _, .cons e es h hs => by
    obtain ⟨ts, w1, g1⟩ := h.back
    obtain ⟨us, w2, g2⟩ := hs.back
    cases g2 with
    | nil => exact ⟨ts, w1, .some _ _ (.one _ _ g1)⟩
    | some _ _ g2 =>
      refine ⟨ts ++ .x (c! ',') :: us, ?_, .some _ _ (.cons _ _ _ _ g1 g2)⟩
      have := w1.join (w2.punctX (c := c! ',') (by decide)) neutral_comma (outside_expr _ _)
      cases g2 <;> exact this
end

/-! ## Paths -/

theorem Back.gparen {w : Bytes} {e : Expr} (h : Back env w e) :
    ∃ ts, Written env.parseFloat (.p (c! '(') :: ts) (paren w) ∧ Written env.parseFloat ts (w ++ b! ")") ∧ GParen env.reValid ts e := by
  obtain ⟨ts, h1, h2⟩ := h
  have hc : Written env.parseFloat [.x (c! ')')] (b! ")") := .punctX (by decide) (.nil _ White.nil)
  have := h1.join hc (neutral_of (by decide)) (outside_expr _ _)
  exact ⟨_, .punctP (by decide) this, this, ts, h2, rfl⟩

/-- A token of a path alone. -/
theorem written_oneP {lx : Lexeme} {w : Bytes} {pf : Bytes → Option F64} (h : PathWord lx w []) : Written pf [.path lx] w := by
  have := Written.cons (pf := pf) (.path lx) [] [] w [] White.nil (.path _ _ _ h) (.nil _ White.nil)
  simpa using this

theorem pathIdent_word {s : Bytes} (h : PathIdent s) : PathWord (nameTok s) s [] := by
  obtain ⟨c, w, rfl, h1, h2⟩ := h
  exact .name _ _ _ h1 h2 (.nil _)

theorem bound_back {b : Option Bound} (h : ∀ x ∈ b, TreeBound env true x) :
    ∃ ts, Written env.parseFloat ts (writeBound b) ∧ GBound? env.reValid ts b ∧ Outside ts := by
  cases b with
  | none => exact ⟨[], .nil _ White.nil, .none, outside_nil⟩
  | some b =>
    have h' := h b rfl
    clear h
    cases h' with
    | int n h => exact ⟨_, written_oneP (writeInt_word h), .some _ _ (.int n), outside_path _ _⟩
    | expr e h =>
      obtain ⟨ts, w1, _, g1⟩ := (h.back).gparen
      exact ⟨_, w1, .some _ _ (.expr _ _ g1), outside_path _ _⟩

theorem neutral_colon : Neutral (c! ':') := neutral_of (by decide)

theorem elem_back {v : Val} (h : TreeElem env true v) : ElemText env (writeVal v) v := by
  cases h with
  | int n h => exact ⟨_, written_oneP (writeInt_word h), .int n⟩
  | str s => exact ⟨_, written_oneP (strWord.mpr (writeStr_lit s)), .str s⟩
  | name s h => exact ⟨_, written_oneP (pathIdent_word h), .name s⟩
  | slice a b c ha hb hc =>
    obtain ⟨ta, wa, ga, _⟩ := bound_back ha
    obtain ⟨tb, wb, gb, _⟩ := bound_back hb
    cases c with
    | none =>
      refine ⟨_, ?_, .slice _ _ (.two _ _ _ _ ga gb)⟩
      have := wa.join (wb.punctP (c := c! ':') (by decide)) neutral_colon (outside_path _ _)
      simpa [writeVal] using this
    | some c =>
      obtain ⟨tc, wc, gc, _⟩ := bound_back hc
      refine ⟨_, ?_, .slice _ _ (.three _ _ _ _ _ _ ga gb gc)⟩
      have h1 := wb.join (wc.punctP (c := c! ':') (by decide)) neutral_colon (outside_path _ _)
      exact wa.join (h1.punctP (c := c! ':') (by decide)) neutral_colon (outside_path _ _)

theorem member_back {v : Val} (h : TreeMember env true v) :
    ∃ ts, Written env.parseFloat ts (writeVal v) ∧ GMember env.reValid ts (some v) ∧ Spec.Stops (· = c! '.') (writeVal v) := by
  cases h with
  | int n h =>
    refine ⟨_, written_oneP (writeInt_word h), .int n, ?_⟩
    intro c hc
    rintro rfl
    rw [writeVal] at hc
    unfold writeInt at hc
    split at hc
    · simp at hc
    · have := (writeNat_ok n.toInt.natAbs).1.2 _ (List.mem_of_mem_head? hc)
      simp [Digit] at this
  | name s h =>
    refine ⟨_, written_oneP (pathIdent_word h), .name s, ?_⟩
    obtain ⟨c, w, rfl, h1, h2⟩ := h
    intro c' hc'
    rintro rfl
    simp [writeVal] at hc'
    subst hc'
    simp [Letter] at h1
  | expr e h =>
    obtain ⟨ts, w1, _, g1⟩ := (h.back).gparen
    exact ⟨_, w1, .expr _ _ g1, by simp [Spec.Stops, writeVal, paren]⟩

theorem bracketed {ts : List Token} {w : Bytes} (h : Written env.parseFloat ts w) :
    Written env.parseFloat (.p (c! '[') :: (ts ++ [.p (c! ']')])) (bracket w) :=
  .punctP (by decide) (h.join (.punctP (by decide) (.nil _ White.nil)) (neutral_of (by decide)) (outside_path _ _))

theorem nested_written {ts : List Token} {w : Bytes} (h : Written env.parseFloat ts w) :
    Written env.parseFloat (.path (.plain .nest) :: ts) (b! ".." ++ w) :=
  .cons _ _ [] (b! "..") _ White.nil (.path _ _ _ (.nest _)) h

theorem key_back {v : Val} (h : TreeKey env true v) :
    ∃ ts, Written env.parseFloat ts (writeVal v) ∧ GSub env.reValid ts (.key v) := by
  cases h with
  | elem v h => obtain ⟨ts, h1, h2⟩ := elem_back h; exact ⟨ts, h1, .one _ _ h2⟩
  | expr e h => obtain ⟨ts, w1, _, g1⟩ := (h.back).gparen; exact ⟨_, w1, .expr _ _ g1⟩

theorem filter_back {e : Expr} (h : Tree env true e) :
    ∃ ts, Written env.parseFloat ts (b! "?(" ++ (writeExpr e ++ b! ")")) ∧ GSub env.reValid ts (.filter e) := by
  obtain ⟨ts, _, w1, g1⟩ := (h.back).gparen
  exact ⟨.path (.plain .filter) :: ts, .cons _ _ [] (b! "?(") _ White.nil (.path _ _ _ (.filter _)) w1, .filter _ _ g1⟩

theorem union_back {vs : List Val} (h2 : 2 ≤ vs.length) (h : ∀ v ∈ vs, TreeElem env true v) :
    ∃ ts, Written env.parseFloat ts (commas (vs.map (writeVal))) ∧ GSub env.reValid ts (.union vs) := by
  obtain ⟨ts, w1, g1⟩ := commas_elems (l := vs.map fun v => (writeVal v, v)) (by
    intro x hx
    obtain ⟨v, hv, rfl⟩ := List.mem_map.mp hx
    exact elem_back (h v hv)) (by rintro h; simp at h; subst h; simp at h2)
  simp only [List.map_map, Function.comp_def, List.map_id'] at w1 g1
  exact ⟨ts, w1, .union _ _ g1 h2⟩

theorem wild_back : Written env.parseFloat [.p (c! '*')] (b! "*") := .punctP (by decide) (.nil _ White.nil)

theorem step_back {s : Step} (h : TreeStep env true s) :
    ∃ ts c w, writeStep s = c :: w ∧ (c = c! '.' ∨ c = c! '[') ∧ Written env.parseFloat ts (c :: w) ∧ GStep env.reValid ts s := by
  cases h with
  | wild => exact ⟨_, _, _, rfl, .inr rfl, bracketed wild_back, .sub _ _ .wild⟩
  | nestWild => exact ⟨_, _, _, rfl, .inl rfl, nested_written (bracketed wild_back), .nestSub _ _ .wild⟩
  | filter e h =>
    obtain ⟨ts, w1, g1⟩ := filter_back h
    have := bracketed w1
    exact ⟨_, c! '[', b! "?(" ++ (writeExpr e ++ b! ")]"), rfl, .inr rfl, by simpa [bracket] using this, .sub _ _ g1⟩
  | nestFilter e h =>
    obtain ⟨ts, w1, g1⟩ := filter_back h
    have := nested_written (bracketed w1)
    exact ⟨_, c! '.', b! ".[?(" ++ (writeExpr e ++ b! ")]"), rfl, .inl rfl, by simpa [bracket] using this, .nestSub _ _ g1⟩
  | member v h =>
    obtain ⟨ts, w1, g1, hs⟩ := member_back h
    exact ⟨.p (c! '.') :: ts, c! '.', writeVal v, rfl, .inl rfl, .cons _ _ [] (b! ".") _ White.nil (.path _ _ _ (.dot _ hs)) w1, .member _ _ g1⟩
  | nestMember v h =>
    obtain ⟨ts, w1, g1, hs⟩ := member_back h
    exact ⟨_, c! '.', c! '.' :: writeVal v, rfl, .inl rfl, nested_written w1, .nestMember _ _ g1⟩
  | select v h =>
    obtain ⟨ts, w1, g1⟩ := key_back h
    exact ⟨_, _, _, rfl, .inr rfl, bracketed w1, .sub _ _ g1⟩
  | nestSelect v h =>
    obtain ⟨ts, w1, g1⟩ := key_back h
    exact ⟨_, _, _, rfl, .inl rfl, nested_written (bracketed w1), .nestSub _ _ g1⟩
  | union vs h2 h =>
    obtain ⟨ts, w1, g1⟩ := union_back h2 h
    exact ⟨_, _, _, rfl, .inr rfl, bracketed w1, .sub _ _ g1⟩
  | nestUnion vs h2 h =>
    obtain ⟨ts, w1, g1⟩ := union_back h2 h
    exact ⟨_, _, _, rfl, .inl rfl, nested_written (bracketed w1), .nestSub _ _ g1⟩

theorem path_back : ∀ {p : Path}, TreePath env true p → ∀ {ts : List Token} {pre : Bytes} {p0 : Path},
    Written env.parseFloat ts pre → GPath env.reValid ts p0 →
    ∃ us, Written env.parseFloat us (pre ++ p.flatMap (writeStep)) ∧ GPath env.reValid us (p0 ++ p)
  | [], _, ts, pre, p0, h1, h2 => ⟨ts, by simpa using h1, by simpa using h2⟩
  | s :: p, h, ts, pre, p0, h1, h2 => by
    obtain ⟨us, c, w, e, hc, w1, g1⟩ := step_back (h s (by simp))
    have hl := h2.lastTok
    obtain ⟨vs, g2, rfl⟩ := h2
    have ho : Outside us := by obtain ⟨lx, us, rfl, _⟩ := GStep_first g1; exact outside_path _ _
    have w2 : Written env.parseFloat ((.p (c! '$') :: vs) ++ us) (pre ++ c :: w) := by
      rcases hc with rfl | rfl
      · exact h1.join_dot w1 ho hl
      · exact h1.join w1 (neutral_of (by decide)) ho
    obtain ⟨ws, w3, g3⟩ := path_back (p := p) (fun s' hs' => h s' (by simp [hs'])) (p0 := p0 ++ [s]) w2
      ⟨vs ++ us, by simpa using GSteps_append g2 (.cons _ _ _ _ g1 .nil), by simp⟩
    refine ⟨ws, ?_, by simpa using g3⟩
    rw [List.flatMap_cons, e]
    simpa using w3

/-! ## Only trees -/

/-- Every token of a text is spelled somehow. -/
def Spelled (pf : Bytes → Option F64) (t : Token) : Prop := ∃ w next, Word pf t w next

theorem Spec.Written.spelled {pf : Bytes → Option F64} {ts : List Token} {text : Bytes} (h : Written pf ts text) : ∀ t ∈ ts, Spelled pf t := by
  induction h with
  | nil => simp
  | cons t ts g w next _ hw _ ih =>
    intro t' ht'
    rcases List.mem_cons.mp ht' with rfl | h
    · exact ⟨w, next, hw⟩
    · exact ih t' h

theorem Spelled.pathInt {n : Int64} {pf : Bytes → Option F64} (h : Spelled pf (.path (intTok n))) : TreeInt true n := by
  obtain ⟨w, next, h⟩ := h
  cases h with
  | path _ _ _ h =>
    have h := intWord.mp h.atEnd
    intro _
    rcases h with ⟨_, h1, rfl⟩ | ⟨g, ds, _, _, h1, _, rfl⟩
    · rw [Int64.toInt_ofNat_of_lt h1]; omega
    · rw [Int64.toInt_neg, Int64.toInt_ofNat_of_lt (by omega), Int.bmod_eq_of_le (by omega) (by omega)]
      omega

theorem Spelled.pathName {s : Bytes} {pf : Bytes → Option F64} (h : Spelled pf (.path (nameTok s))) : PathIdent s := by
  obtain ⟨w, next, h⟩ := h
  cases h with
  | path _ _ _ h =>
    generalize hl : nameTok s = lx at h
    cases h with
    | name c w _ h1 h2 => simp at hl; exact ⟨c, w, hl, h1, h2⟩
    | _ => simp [Lexeme.plain] at hl

theorem Spelled.name {s : Bytes} {pf : Bytes → Option F64} (h : Spelled pf (.expr (nameTok s))) : Ident s := by
  obtain ⟨w, next, h⟩ := h
  cases h with
  | expr _ _ _ h =>
    generalize hl : nameTok s = lx at h
    cases h with
    | name c w _ h1 h2 => simp at hl; exact ⟨c, w, hl, h1, h2⟩
    | _ => simp [Lexeme.plain] at hl

theorem Spelled.int {n : Int64} {pf : Bytes → Option F64} (h : Spelled pf (.expr (intTok n))) : 0 ≤ n.toInt := by
  obtain ⟨w, next, h⟩ := h
  cases h with
  | expr _ _ _ h =>
    generalize hl : intTok n = lx at h
    cases h with
    | int _ _ h1 h2 h3 => simp at hl; subst hl; rw [Int64.toInt_ofNat_of_lt h3]; omega
    | _ => simp [Lexeme.plain] at hl

theorem Spelled.float {f : F64} {pf : Bytes → Option F64} (h : Spelled pf (.expr (realTok f))) : ∃ w, RealText w [] ∧ pf w = some f := by
  obtain ⟨w, next, h⟩ := h
  cases h with
  | expr _ _ _ h =>
    have h := h.atEnd
    generalize hl : realTok f = lx at h
    generalize hn : ([] : Bytes) = nx at h
    cases h with
    | real w f _ h1 h2 => simp at hl; subst hl; subst hn; exact ⟨_, h1, h2⟩
    | _ => simp [Lexeme.plain] at hl

theorem reBody_last {t v : Bytes} (h : ReBody t v) : v.getLast? ≠ some (c! '\\') := by
  induction h with
  | nil => simp
  | slash t v _ ih =>
    cases v with
    | nil => simp
    | cons d v => rw [List.getLast?_cons_cons]; exact ih
  | plain c t v _ hb _ ih =>
    cases v with
    | nil => simpa using hb
    | cons d v => rw [List.getLast?_cons_cons]; exact ih
  | backslash c t v _ h ih =>
    cases v with
    | nil => cases h
    | cons d v => rw [List.getLast?_cons_cons]; exact ih

theorem Spelled.re {s : Bytes} {pf : Bytes → Option F64} (h : Spelled pf (.regexp s)) : s.getLast? ≠ some (c! '\\') := by
  obtain ⟨w, next, h⟩ := h
  cases h with
  | regexp t _ _ h => exact reBody_last h

theorem OpTok.is_binary {lx : Lexeme} {op : Op} {k : Nat} (h : OpTok lx op k) : Binary op := by
  cases h <;> exact ⟨_, by constructor⟩

abbrev Sp (env : Env) (ts : List Token) : Prop := ∀ t ∈ ts, Spelled env.parseFloat t

theorem Sp.left {ts us : List Token} (h : Sp env (ts ++ us)) : Sp env ts := fun t ht => h t (by simp [ht])
theorem Sp.right {ts us : List Token} (h : Sp env (ts ++ us)) : Sp env us := fun t ht => h t (by simp [ht])
theorem Sp.tail {t : Token} {ts : List Token} (h : Sp env (t :: ts)) : Sp env ts := fun t' ht => h t' (by simp [ht])
theorem Sp.head {t : Token} {ts : List Token} (h : Sp env (t :: ts)) : Spelled env.parseFloat t := h t (by simp)

mutual
theorem GExpr.tree : ∀ {n : Nat} {ts : List Token} {e : Expr}, GExpr env.reValid n ts e → Sp env ts → Tree env true e
  | _, _, _, .unary _ _ _ h, hs => GUnary.tree h hs
  | _, _, _, .binary _ _ _ _ _ _ _ _ _ ho h1 h2, hs => .binary _ _ _ (OpTok.is_binary ho) (GExpr.tree h1 hs.left) (GExpr.tree h2 hs.right.tail)
theorem GUnary.tree : ∀ {ts : List Token} {e : Expr}, GUnary env.reValid ts e → Sp env ts → Tree env true e
  | _, _, .primary _ _ h, hs => GPrimary.tree h hs
  | _, _, .neg _ _ h, hs => .unary _ _ (.inl rfl) (GUnary.tree h hs.tail)
  | _, _, .not _ _ h, hs => .unary _ _ (.inr rfl) (GUnary.tree h hs.tail)
theorem GPrimary.tree : ∀ {ts : List Token} {e : Expr}, GPrimary env.reValid ts e → Sp env ts → Tree env true e
  | _, _, .atom _ _ h, hs => GAtom.tree h hs
  | _, _, .call _ _ _ _ h1 h2, hs => .call _ _ (GPrimary.tree h1 hs.left) (GList.tree h2 hs.right.tail.left)
  | _, _, .index _ _ _ _ h1 h2, hs => .index _ _ (GPrimary.tree h1 hs.left) (GExpr.tree h2 hs.right.tail.left)
  | _, _, .dot _ _ _ h, hs => .dot _ _ (GPrimary.tree h hs.left) hs.right.tail.head.name
theorem GAtom.tree : ∀ {ts : List Token} {e : Expr}, GAtom env.reValid ts e → Sp env ts → Tree env true e
  | _, _, .tru, _ => .bool _
  | _, _, .fls, _ => .bool _
  | _, _, .nul, _ => .null
  | _, _, .name _ h1 h2 h3, hs => .name _ hs.head.name h1 h2 h3
  | _, _, .int _, hs => .int _ hs.head.int
  | _, _, .real _, hs => let ⟨_, h1, h2⟩ := hs.head.float; .float _ (real_finite h1 h2).1 (real_finite h1 h2).2
  | _, _, .str _, _ => .str _
  | _, _, .re _ h, hs => .re _ h fun _ => hs.tail.head.re
  | _, _, .current, _ => .current
  | _, _, .root, _ => .root
  | _, _, .paren _ _ h, hs => GExpr.tree h hs.tail.left
  | _, _, .array _ _ h, hs => .array _ (GList.tree h hs.tail.left)
theorem GList.tree : ∀ {ts : List Token} {es : List Expr}, GList env.reValid ts es → Sp env ts → Trees env true es
  | _, _, .nil, _ => .nil
  | _, _, .some _ _ h, hs => GList1.tree h hs
theorem GList1.tree : ∀ {ts : List Token} {es : List Expr}, GList1 env.reValid ts es → Sp env ts → Trees env true es
  | _, _, .one _ _ h, hs => .cons _ _ (GExpr.tree h hs) .nil
  | _, _, .cons _ _ _ _ h1 h2, hs => .cons _ _ (GExpr.tree h1 hs.left) (GList1.tree h2 hs.right.tail)
end

theorem GParen.tree {ts : List Token} {e : Expr} (h : GParen env.reValid ts e) (hs : Sp env ts) : Tree env true e := by
  obtain ⟨us, h, rfl⟩ := h
  exact GExpr.tree h hs.left

theorem GBound?.tree {ts : List Token} {b : Option Bound} (h : GBound? env.reValid ts b) (hs : Sp env ts) : ∀ x ∈ b, TreeBound env true x := by
  cases h with
  | none => intro x hx; cases hx
  | some _ _ h =>
    intro x hx
    cases hx
    cases h with
    | int n => exact .int _ hs.head.pathInt
    | expr _ _ h => exact .expr _ (GParen.tree h hs.tail)

theorem GElem.tree {ts : List Token} {v : Val} (h : GElem env.reValid ts v) (hs : Sp env ts) : TreeElem env true v := by
  cases h with
  | int n => exact .int _ hs.head.pathInt
  | str s => exact .str _
  | name s => exact .name _ hs.head.pathName
  | slice _ _ h =>
    cases h with
    | two _ _ _ _ h1 h2 => exact .slice _ _ _ (GBound?.tree h1 hs.left) (GBound?.tree h2 hs.right.tail) (by intro x hx; cases hx)
    | three _ _ _ _ _ _ h1 h2 h3 =>
      exact .slice _ _ _ (GBound?.tree h1 hs.left) (GBound?.tree h2 hs.right.tail.left) (GBound?.tree h3 hs.right.tail.right.tail)

theorem GElems.tree {ts : List Token} {vs : List Val} (h : GElems env.reValid ts vs) : Sp env ts → ∀ v ∈ vs, TreeElem env true v := by
  induction h with
  | one ts v h => intro hs v' hv; simp at hv; subst hv; exact GElem.tree h hs
  | cons ts v us vs h _ ih =>
    intro hs v' hv
    rcases List.mem_cons.mp hv with rfl | hv
    · exact GElem.tree h hs.left
    · exact ih hs.right.tail v' hv

theorem GMember.tree {ts : List Token} {v : Val} (h : GMember env.reValid ts (some v)) (hs : Sp env ts) : TreeMember env true v := by
  cases h with
  | name s => exact .name _ hs.head.pathName
  | int n => exact .int _ hs.head.pathInt
  | expr _ _ h => exact .expr _ (GParen.tree h hs.tail)

theorem GStep.tree {ts : List Token} {s : Step} (h : GStep env.reValid ts s) (hs : Sp env ts) : TreeStep env true s := by
  cases h with
  | member ts m h =>
    cases m with
    | none => exact .wild
    | some v => exact .member _ (GMember.tree h hs.tail)
  | nestMember ts m h =>
    cases m with
    | none => exact .nestWild
    | some v => exact .nestMember _ (GMember.tree h hs.tail)
  | sub ts k h =>
    have hs := hs.tail.left
    cases h with
    | wild => exact .wild
    | filter _ _ h => exact .filter _ (GParen.tree h hs.tail)
    | expr _ _ h => exact .select _ (.expr _ (GParen.tree h hs.tail))
    | one _ _ h => exact .select _ (.elem _ (GElem.tree h hs))
    | union _ _ h h2 => exact .union _ h2 (GElems.tree h hs)
  | nestSub ts k h =>
    have hs := hs.tail.tail.left
    cases h with
    | wild => exact .nestWild
    | filter _ _ h => exact .nestFilter _ (GParen.tree h hs.tail)
    | expr _ _ h => exact .nestSelect _ (.expr _ (GParen.tree h hs.tail))
    | one _ _ h => exact .nestSelect _ (.elem _ (GElem.tree h hs))
    | union _ _ h h2 => exact .nestUnion _ h2 (GElems.tree h hs)

theorem GSteps.tree {ts : List Token} {p : Path} (h : GSteps env.reValid ts p) : Sp env ts → TreePath env true p := by
  induction h with
  | nil => intro _ s hs; simp at hs
  | cons ts s us p h _ ih =>
    intro hs s' hs'
    rcases List.mem_cons.mp hs' with rfl | h'
    · exact GStep.tree h hs.left
    · exact ih hs.right s' h'

end JP
