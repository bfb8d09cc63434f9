import Verif.Spec.Documented
import Verif.Proof.Join
/-!
The grammar the parser follows is contained in the documented one.
-/
namespace JP
open Spec

variable {env : Env} {valid : Bytes → Bool}

theorem OpTok.binary {lx : Lexeme} {op : Op} {k : Nat} (h : OpTok lx op k) : DBinary lx op := by
  cases h <;> constructor

mutual
theorem GExpr.documented : ∀ {n : Nat} {ts : List Token} {e : Expr}, GExpr valid n ts e → DExpr valid ts e
  | _, _, _, .unary _ _ _ h => GUnary.documented h
  | _, _, _, .binary _ _ _ _ _ _ _ _ _ ho h1 h2 => .binary _ _ _ _ _ _ (GExpr.documented h1) (OpTok.binary ho) (GExpr.documented h2)
theorem GUnary.documented : ∀ {ts : List Token} {e : Expr}, GUnary valid ts e → DExpr valid ts e
  | _, _, .primary _ _ h => .primary _ _ (GPrimary.documented h)
  | _, _, .neg _ _ h => .unary _ _ _ _ .neg (GUnary.documented h)
  | _, _, .not _ _ h => .unary _ _ _ _ .not (GUnary.documented h)
theorem GPrimary.documented : ∀ {ts : List Token} {e : Expr}, GPrimary valid ts e → DPrimary valid ts e
  | _, _, .atom _ _ h => .primary1 _ _ (GAtom.documented h)
  | _, _, .call _ _ _ _ h hl => .call _ _ _ _ (GPrimary.documented h) (GList.documented hl)
  | _, _, .index _ _ _ _ h hi => .index _ _ _ _ (GPrimary.documented h) (GExpr.documented hi)
  | _, _, .dot _ _ _ h => .dot _ _ _ (GPrimary.documented h)
theorem GAtom.documented : ∀ {ts : List Token} {e : Expr}, GAtom valid ts e → DPrimary1 valid ts e
  | _, _, .tru => DPrimary1.ident (b! "true")
  | _, _, .fls => DPrimary1.ident (b! "false")
  | _, _, .nul => DPrimary1.ident (b! "null")
  | _, _, .name s h1 h2 h3 => by
    have := DPrimary1.ident (valid := valid) s
    simp only [ident, if_neg h1, if_neg h2, if_neg h3] at this
    exact this
  | _, _, .int n => .int n
  | _, _, .real n => .real n
  | _, _, .str n => .str n
  | _, _, .re n h => .re n h
  | _, _, .current => .current
  | _, _, .root => .root
  | _, _, .paren _ _ h => .paren _ _ (GExpr.documented h)
  | _, _, .array _ _ h => .array _ _ (GList.documented h)
theorem GList.documented : ∀ {ts : List Token} {es : List Expr}, GList valid ts es → DList? valid ts es
  | _, _, .nil => .none
  | _, _, .some _ _ h => .some _ _ (GList1.documented h)
theorem GList1.documented : ∀ {ts : List Token} {es : List Expr}, GList1 valid ts es → DList valid ts es
  | _, _, .one _ _ h => .one _ _ (GExpr.documented h)
  | _, _, .cons _ _ _ _ h hs => .cons _ _ _ _ (GExpr.documented h) (GList1.documented hs)
end

theorem GParen.documented {ts : List Token} {e : Expr} (h : GParen valid ts e) : DParen valid (.p (c! '(') :: ts) e := by
  obtain ⟨us, h, rfl⟩ := h
  exact .mk _ _ (GExpr.documented h)

theorem GBound?.documented {ts : List Token} {b : Option Bound} (h : GBound? valid ts b) : DBound? valid ts b := by
  cases h with
  | none => exact .none
  | some _ _ h =>
    cases h with
    | int n => exact .some _ _ (.int n)
    | expr ts e h => exact .some _ _ (.expr _ _ (GParen.documented h))

theorem GSlice.documented {ts : List Token} {s : Slice} (h : GSlice valid ts s) : DSlice valid ts s := by
  cases h with
  | two _ _ _ _ h1 h2 => exact .two _ _ _ _ (GBound?.documented h1) (GBound?.documented h2)
  | three _ _ _ _ _ _ h1 h2 h3 =>
    exact .three _ _ _ _ _ _ (GBound?.documented h1) (GBound?.documented h2) (GBound?.documented h3)

/-- Not a bare name. -/
def Quoted (v : Val) : Prop := ∀ s, v ≠ .name s

theorem GElem.documented {ts : List Token} {v : Val} (h : GElem valid ts v) (hv : Quoted v) : DElem valid ts v := by
  cases h with
  | int n => exact .index n
  | str s => exact .str s
  | name s => exact absurd rfl (hv s)
  | slice ts s h => exact .slice _ _ (GSlice.documented h)

theorem GElems.documented {ts : List Token} {vs : List Val} (h : GElems valid ts vs) : (∀ v ∈ vs, Quoted v) → DElems valid ts vs := by
  induction h with
  | one ts v h => intro hv; exact .one _ _ (GElem.documented h (hv v (by simp)))
  | cons ts v us vs h _ ih =>
    intro hv
    exact .cons _ _ _ _ (GElem.documented h (hv v (by simp))) (ih fun w hw => hv w (by simp [hw]))

theorem GMember.documented {ts : List Token} {m : Option Val} (h : GMember valid ts m) :
    DMember valid ts ((memberKind m).step false false).op ((memberKind m).step false false).args := by
  cases h with
  | wild => exact .wild
  | name s => exact .ident s
  | int n => exact .int n
  | expr ts e h => exact .expr _ _ (GParen.documented h)

theorem GSub.documented {ts : List Token} {k : StepKind} (h : GSub valid ts k) (hq : ∀ v ∈ (k.step true false).args, Quoted v) :
    DSub valid ts (k.step true false).op (k.step true false).args := by
  cases h with
  | wild => exact .wild
  | filter ts e h =>
    obtain ⟨us, h, rfl⟩ := h
    exact .filter _ _ (.mk _ _ (GExpr.documented h))
  | expr ts e h => exact .expr _ _ (GParen.documented h)
  | one ts v h => exact .one _ _ (.one _ _ (GElem.documented h (hq v (by simp [StepKind.step]))))
  | union ts vs h hl => exact .union _ _ (GElems.documented h (fun v hv => hq v hv)) hl

/-- The steps with a subscript. -/
def Spec.Op.subscript (op : Op) : Prop := op = .select ∨ op = .union ∨ op = .nestSelect ∨ op = .nestUnion

theorem step_nested (k : StepKind) (b : Bool) :
    k.step b true = ⟨nested (k.step b false).op, (k.step b false).args⟩ := by
  cases k <;> cases b <;> rfl

theorem GStep.documented {ts : List Token} {s : Step} (h : GStep valid ts s)
    (hq : Spec.Op.subscript s.op → ∀ v ∈ s.args, Quoted v) : DStep valid ts s := by
  cases h with
  | member ts m h => exact .member _ _ _ (GMember.documented h)
  | nestMember ts m h => rw [step_nested]; exact .nestMember _ _ _ (GMember.documented h)
  | sub ts k h =>
    refine .sub _ _ _ (GSub.documented h ?_)
    cases k with
    | wild => intro v hv; simp [StepKind.step] at hv
    | filter e => intro v hv; simp [StepKind.step] at hv; subst hv; intro s h; cases h
    | key v => exact hq (.inl rfl)
    | union vs => exact hq (.inr (.inl rfl))
  | nestSub ts k h =>
    rw [step_nested]
    refine .nestSub _ _ _ (GSub.documented h ?_)
    cases k with
    | wild => intro v hv; simp [StepKind.step] at hv
    | filter e => intro v hv; simp [StepKind.step] at hv; subst hv; intro s h; cases h
    | key v => exact hq (.inr (.inr (.inl rfl)))
    | union vs => exact hq (.inr (.inr (.inr rfl)))

theorem GSteps.documented {ts : List Token} {p : Path} (h : GSteps valid ts p) :
    (∀ s ∈ p, Spec.Op.subscript s.op → ∀ v ∈ s.args, Quoted v) → DSteps valid ts p := by
  induction h with
  | nil => intro _; exact .nil
  | cons ts s us p h _ ih =>
    intro hq
    exact .cons _ _ _ _ (GStep.documented h (hq s (by simp))) (ih fun s' hs' => hq s' (by simp [hs']))

/-! No derivation of `$[a]`. -/

theorem DElem_first {ts : List Token} {v : Val} (h : DElem valid ts v) : ∃ lx us, ts = .path lx :: us ∧ lx.tok ≠ .id := by
  have bound : ∀ {ts b}, DBound? valid ts b → ts = [] ∨ ∃ lx us, ts = .path lx :: us ∧ lx.tok ≠ .id := by
    intro ts b h
    cases h with
    | none => exact .inl rfl
    | some _ _ h =>
      cases h with
      | int n => exact .inr ⟨_, _, rfl, by simp⟩
      | expr _ _ h => cases h; exact .inr ⟨_, _, rfl, by simp [Lexeme.plain]⟩
  cases h with
  | index n => exact ⟨_, _, rfl, by simp⟩
  | str s => exact ⟨_, _, rfl, by simp⟩
  | slice _ _ h =>
    cases h with
    | two _ _ _ _ h _ =>
      rcases bound h with rfl | ⟨lx, us, rfl, h'⟩
      · exact ⟨_, _, rfl, by simp [Lexeme.plain]⟩
      · exact ⟨_, _, rfl, h'⟩
    | three _ _ _ _ _ _ h _ =>
      rcases bound h with rfl | ⟨lx, us, rfl, h'⟩
      · exact ⟨_, _, rfl, by simp [Lexeme.plain]⟩
      · exact ⟨_, _, rfl, h'⟩

theorem DSub_first {ts : List Token} {op : Op} {vs : List Val} (h : DSub valid ts op vs) : ∃ lx us, ts = .path lx :: us ∧ lx.tok ≠ .id := by
  have elems : ∀ {ts vs}, DElems valid ts vs → ∃ lx us, ts = .path lx :: us ∧ lx.tok ≠ .id := by
    intro ts vs h
    cases h with
    | one _ _ h => exact DElem_first h
    | cons _ _ _ _ h _ => obtain ⟨lx, us, rfl, h'⟩ := DElem_first h; exact ⟨_, _, rfl, h'⟩
  cases h with
  | wild => exact ⟨_, _, rfl, by simp [Lexeme.plain]⟩
  | expr _ _ h => cases h; exact ⟨_, _, rfl, by simp [Lexeme.plain]⟩
  | filter _ _ h => cases h; exact ⟨_, _, rfl, by simp [Lexeme.plain]⟩
  | one _ _ h => exact elems h
  | union _ _ h _ => exact elems h

theorem DPath_no_name {x : Bytes} {c : UInt8} {ts : List Token} {p : Path} (hc : Letter c)
    (h1 : Written env.parseFloat ts (b! "$[" ++ c :: x)) (h2 : DPath valid ts p) : False := by
  cases h2 with
  | mk us p h2 =>
    have h3 := (Written.path_inv (g := []) (w := b! "$") (next := c! '[' :: c :: x) h1 White.nil (.punct _ _ (by decide))).2
    cases h2 with
    | nil =>
      have := h3.nil_inv (c! '[') (by simp)
      simp [Space] at this
    | cons ts s us p h4 h5 =>
      have open_ : PathWord (.plain (.ch (c! '['))) (b! "[") (c :: x) := .punct _ _ (by decide)
      cases h4 with
      | member ts op vs h =>
        have := (Written.path_inv (g := []) (w := b! "[") (next := c :: x) h3 White.nil open_).1
        simp [Lexeme.plain] at this
      | nestMember ts op vs h =>
        have := (Written.path_inv (g := []) (w := b! "[") (next := c :: x) h3 White.nil open_).1
        simp [Lexeme.plain] at this
      | nestSub ts op vs h =>
        have := (Written.path_inv (g := []) (w := b! "[") (next := c :: x) h3 White.nil open_).1
        simp [Lexeme.plain] at this
      | sub ts op vs h =>
        have h6 := (Written.path_inv (g := []) (w := b! "[") (next := c :: x) h3 White.nil open_).2
        obtain ⟨lx, vs', rfl, hne⟩ := DSub_first h
        have hs := takeWhile_split (p := isAlphanumericDash) (q := LetterDigitDash) (fun _ => isAlphanumericDash_iff) x
        have hw : PathWord (nameTok (c :: x.takeWhile isAlphanumericDash)) (c :: x.takeWhile isAlphanumericDash) (x.dropWhile isAlphanumericDash) :=
          .name _ _ _ hc hs.1 hs.2
        have e : c :: x = [] ++ ((c :: x.takeWhile isAlphanumericDash) ++ x.dropWhile isAlphanumericDash) := by simp
        rw [e] at h6
        have := (Written.path_inv h6 White.nil hw).1
        rw [this] at hne
        exact hne rfl

end JP
