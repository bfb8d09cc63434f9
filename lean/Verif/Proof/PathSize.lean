import Verif.Proof.Written
/-! The size of a path against the length of its text. -/
namespace JP
open Spec

/-- The least length of a token. -/
def tokenLength : Token → Nat
  | .path ⟨.nest, _, _⟩ => 2
  | .path ⟨.filter, _, _⟩ => 2
  | _ => 1

def tokensLength (ts : List Token) : Nat := (ts.map tokenLength).sum

theorem tokensLength_append (ts us : List Token) : tokensLength (ts ++ us) = tokensLength ts + tokensLength us := by
  simp [tokensLength]

theorem tokensLength_cons (t : Token) (us : List Token) : tokensLength (t :: us) = tokenLength t + tokensLength us := by
  simp [tokensLength]

theorem tl_p (c : UInt8) : tokenLength (.p c) = 1 := rfl
theorem tl_nest : tokenLength (.path (.plain .nest)) = 2 := rfl
theorem tl_filter : tokenLength (.path (.plain .filter)) = 2 := rfl
theorem tl_name (s : Bytes) : tokenLength (.path (nameTok s)) = 1 := rfl
theorem tl_str (s : Bytes) : tokenLength (.path (strTok s)) = 1 := rfl
theorem tl_int (n : Int64) : tokenLength (.path (intTok n)) = 1 := rfl

theorem tokensLength_nil : tokensLength [] = 0 := rfl

theorem strLit_length {w v : Bytes} (h : StrLit w v) : 1 ≤ w.length := by cases h <;> simp

theorem digits_length {w : Bytes} (h : Digits w) : 1 ≤ w.length := by
  have := h.1
  cases w with
  | nil => exact absurd rfl this
  | cons => simp

theorem word_length {pf : Bytes → Option F64} {t : Token} {w next : Bytes} (h : Word pf t w next) : tokenLength t ≤ w.length := by
  cases h with
  | path lx w next h =>
    cases h with
    | str _ _ _ h => exact strLit_length h
    | int _ _ h => exact digits_length h
    | _ => simp [tokenLength, Lexeme.plain]
  | expr lx w next h =>
    cases h with
    | str _ _ _ h => exact strLit_length h
    | int _ _ h => exact digits_length h
    | real _ _ _ h => cases h; simp [tokenLength]; omega
    | _ => simp [tokenLength]
  | regexp t v next => simp [tokenLength]

theorem written_length {pf : Bytes → Option F64} {ts : List Token} {text : Bytes} (h : Written pf ts text) : tokensLength ts ≤ text.length := by
  induction h with
  | nil g _ => simp [tokensLength]
  | cons t ts g w next _ hw _ ih =>
    have := word_length hw
    rw [tokensLength_cons]
    simp only [List.length_append]
    omega

mutual
theorem size_gexpr {valid : Bytes → Bool} : ∀ {n : Nat} {ts : List Token} {e : Expr}, GExpr valid n ts e → e.size ≤ tokensLength ts
  | _, _, _, .unary _ _ _ h => size_gunary h
  | _, _, _, .binary _ _ _ lx _ _ _ _ _ _ h1 h2 => by
    have a := size_gexpr h1
    have b := size_gexpr h2
    simp only [Expr.size, Exprs.size, tokensLength_append, tokensLength_cons, tokenLength]
    omega
theorem size_gunary {valid : Bytes → Bool} : ∀ {ts : List Token} {e : Expr}, GUnary valid ts e → e.size ≤ tokensLength ts
  | _, _, .primary _ _ h => size_gprimary h
  | _, _, .neg _ _ h => by
    have a := size_gunary h
    simp only [Expr.size, Exprs.size, tokensLength_cons, tokenLength]
    omega
  | _, _, .not _ _ h => by
    have a := size_gunary h
    simp only [Expr.size, Exprs.size, tokensLength_cons, tokenLength]
    omega
theorem size_gprimary {valid : Bytes → Bool} : ∀ {ts : List Token} {e : Expr}, GPrimary valid ts e → e.size ≤ tokensLength ts
  | _, _, .atom _ _ h => size_gatom h
  | _, _, .call _ _ _ _ h1 h2 => by
    have a := size_gprimary h1
    have b := size_glist h2
    simp only [Expr.size, Exprs.size, tokensLength_append, tokensLength_cons, tokensLength_nil, tokenLength] at a ⊢
    omega
  | _, _, .index _ _ _ _ h1 h2 => by
    have a := size_gprimary h1
    have b := size_gexpr h2
    simp only [Expr.size, Exprs.size, tokensLength_append, tokensLength_cons, tokensLength_nil, tokenLength] at a ⊢
    omega
  | _, _, .dot _ _ _ h1 => by
    have a := size_gprimary h1
    simp only [Expr.size, Exprs.size, tokensLength_append, tokensLength_cons, tokensLength_nil, tokenLength] at a ⊢
    omega
theorem size_gatom {valid : Bytes → Bool} : ∀ {ts : List Token} {e : Expr}, GAtom valid ts e → e.size ≤ tokensLength ts
  | _, _, .tru => by simp [Expr.size, tokensLength, tokenLength]
  | _, _, .fls => by simp [Expr.size, tokensLength, tokenLength]
  | _, _, .nul => by simp [Expr.size, tokensLength, tokenLength]
  | _, _, .name _ _ _ _ => by simp [Expr.size, tokensLength, tokenLength]
  | _, _, .int _ => by simp [Expr.size, tokensLength, tokenLength]
  | _, _, .real _ => by simp [Expr.size, tokensLength, tokenLength]
  | _, _, .str _ => by simp [Expr.size, tokensLength, tokenLength]
  | _, _, .re _ _ => by simp [Expr.size, tokensLength, tokenLength]
  | _, _, .current => by simp [Expr.size, tokensLength, tokenLength]
  | _, _, .root => by simp [Expr.size, tokensLength, tokenLength]
  | _, _, .paren _ _ h => by
    have a := size_gexpr h
    simp only [tokensLength_append, tokensLength_cons, tokensLength_nil, tokenLength]
    omega
  | _, _, .array _ _ h => by
    have a := size_glist h
    simp only [Expr.size, tokensLength_append, tokensLength_cons, tokensLength_nil, tokenLength]
    omega
theorem size_glist {valid : Bytes → Bool} : ∀ {ts : List Token} {es : List Expr}, GList valid ts es → Exprs.size es ≤ tokensLength ts
  | _, _, .nil => by simp [Exprs.size]
  | _, _, .some _ _ h => size_glist1 h
theorem size_glist1 {valid : Bytes → Bool} : ∀ {ts : List Token} {es : List Expr}, GList1 valid ts es → Exprs.size es ≤ tokensLength ts
  | _, _, .one _ _ h => by
    have a := size_gexpr h
    simp only [Exprs.size]
    omega
  | _, _, .cons _ _ _ _ h1 h2 => by
    have a := size_gexpr h1
    have b := size_glist1 h2
    simp only [Exprs.size, tokensLength_append, tokensLength_cons, tokenLength]
    omega
end

theorem size_gparen {valid : Bytes → Bool} {ts : List Token} {e : Expr} (h : GParen valid ts e) : e.size + 1 ≤ tokensLength ts := by
  obtain ⟨us, h, rfl⟩ := h
  have := size_gexpr h
  simp only [tokensLength_append, tokensLength_cons, tokensLength_nil, tokenLength]
  omega

theorem size_gmember {valid : Bytes → Bool} {ts : List Token} {m : Option Val} (h : GMember valid ts m) :
    1 ≤ tokensLength ts ∧ ∀ v, m = some v → v.size ≤ tokensLength ts := by
  cases h with
  | wild => simp [tokensLength_cons, tokensLength_nil, tl_p, tl_name, tl_int, tl_str]
  | name s => simp [tokensLength_cons, tokensLength_nil, tl_p, tl_name, tl_int, tl_str, Val.size]
  | int n => simp [tokensLength_cons, tokensLength_nil, tl_p, tl_name, tl_int, tl_str, Val.size]
  | expr ts e h =>
    have := size_gparen h
    simp only [tokensLength_cons, tl_p, tl_nest]
    refine ⟨by omega, ?_⟩
    rintro v ⟨⟩
    simp only [Val.size]
    omega

theorem size_gelem {valid : Bytes → Bool} {ts : List Token} {v : Val} (h : GElem valid ts v) : v.size ≤ tokensLength ts := by
  cases h with
  | int n => simp [tokensLength_cons, tokensLength_nil, tl_p, tl_name, tl_int, tl_str, Val.size]
  | str n => simp [tokensLength_cons, tokensLength_nil, tl_p, tl_name, tl_int, tl_str, Val.size]
  | name n => simp [tokensLength_cons, tokensLength_nil, tl_p, tl_name, tl_int, tl_str, Val.size]
  | slice ts s h =>
    cases h <;> (simp only [tokensLength_append, tokensLength_cons, tl_p, tl_nest, Val.size]; omega)

theorem size_gelems {valid : Bytes → Bool} {ts : List Token} {vs : List Val} (h : GElems valid ts vs) : Vals.size vs ≤ tokensLength ts := by
  induction h with
  | one ts v h => have := size_gelem h; simp only [Vals.size]; omega
  | cons ts v us vs h _ ih =>
    have := size_gelem h
    simp only [Vals.size, tokensLength_append, tokensLength_cons, tl_p, tl_nest]
    omega

/-- The size of the arguments, and whether the step is a filter. -/
theorem size_gsub {valid : Bytes → Bool} {ts : List Token} {k : StepKind} (h : GSub valid ts k) (deep : Bool) :
    3 * (k.step true deep).size ≤ 4 * (tokensLength ts + 2 + if deep then 2 else 0) := by
  have key : 3 * (k.step true deep).size ≤ 4 * (tokensLength ts + 2 + if deep then 2 else 0) := by
    cases h with
    | wild => cases deep <;> decide
    | filter ts e h =>
      have := size_gparen h
      cases deep <;> simp [StepKind.step, Step.size, Vals.size, Val.size, tokensLength_cons, tl_p, tl_nest, tl_filter] <;> omega
    | expr ts e h =>
      have := size_gparen h
      cases deep <;> simp [StepKind.step, Step.size, Vals.size, Val.size, tokensLength_cons, tl_p, tl_nest, tl_filter] <;> omega
    | one ts v h =>
      have := size_gelem h
      cases deep <;> simp [StepKind.step, Step.size, Vals.size] <;> omega
    | union ts vs h _ =>
      have := size_gelems h
      cases deep <;> simp [StepKind.step, Step.size, Vals.size] <;> omega
  exact key

theorem size_gstep {valid : Bytes → Bool} {ts : List Token} {s : Step} (h : GStep valid ts s) : 3 * s.size ≤ 4 * tokensLength ts := by
  cases h with
  | member ts m h =>
    obtain ⟨h1, h2⟩ := size_gmember h
    rw [tokensLength_cons]
    cases m with
    | none => simp [memberKind, StepKind.step, Step.size, Vals.size, tl_p, tl_nest]; omega
    | some v =>
      have := h2 v rfl
      simp [memberKind, StepKind.step, Step.size, Vals.size, tl_p, tl_nest]; omega
  | nestMember ts m h =>
    obtain ⟨h1, h2⟩ := size_gmember h
    rw [tokensLength_cons]
    cases m with
    | none => simp [memberKind, StepKind.step, Step.size, Vals.size, tl_p, tl_nest, tl_filter]; omega
    | some v =>
      have := h2 v rfl
      simp [memberKind, StepKind.step, Step.size, Vals.size, tl_p, tl_nest, tl_filter]; omega
  | sub ts k h =>
    have := size_gsub h false
    simp only [tokensLength_append, tokensLength_cons, tokensLength_nil, tl_p, tl_nest]
    simp at this
    omega
  | nestSub ts k h =>
    have := size_gsub h true
    simp only [tokensLength_append, tokensLength_cons, tokensLength_nil, tl_p, tl_nest, tl_filter]
    simp at this
    omega

theorem size_gsteps {valid : Bytes → Bool} {ts : List Token} {p : Path} (h : GSteps valid ts p) : 3 * Path.size p ≤ 4 * tokensLength ts := by
  induction h with
  | nil => simp [Path.size]
  | cons ts s us p h _ ih =>
    have := size_gstep h
    rw [tokensLength_append]
    simp only [Path.size]
    omega

/-- A path of `n` bytes has at most `4(n-1)/3` nodes. -/
theorem parsePath_size {env : Env} {text : Bytes} {p : Path} (h : parsePath env text = .ok p) : 3 * Path.size p + 4 ≤ 4 * text.length := by
  obtain ⟨ts, h1, us, h2, rfl⟩ := parsePath_iff.1 h
  have h3 := written_length h1
  have h4 := size_gsteps h2
  rw [tokensLength_cons] at h3
  simp only [tl_p, tl_nest] at h3
  omega

end JP
