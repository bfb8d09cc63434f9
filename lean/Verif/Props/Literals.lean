import Verif.Proof.Literals
import Verif.Props.Ex
/-!
Literals: C33, C34, C36.

What a literal means is stated in `Spec.Literals`: `Denotes` for the inside of a string, `SignedInt` and
`decimal` for integers, `Closed` and `unslash` for regular expressions.
-/
namespace JP
open Spec

variable (env : Env)

/-! ### C33 String literals denote the bytes they spell -/

/-- A literal in a subscript, and as an expression. -/
def Spec.ReadsAs (w v : Bytes) : Prop :=
  parsePath env (b! "$[" ++ (w ++ b! "]")) = .ok [⟨.select, [.str v]⟩] ∧ parseScriptExpression env w = .ok (.str v)

/-- The full statement: every literal denotes the bytes it spells. -/
def LiteralRule : Prop :=
  ∀ (q : UInt8) (t v : Bytes), q = c! '"' ∨ q = c! '\'' → Denotes false q t v → ReadsAs env (q :: (t ++ [q])) v

/-- It holds if no surrogate outside a pair stands right before a pair. -/
theorem C33_literal_partial (q : UInt8) (t v : Bytes) (hq : q = c! '"' ∨ q = c! '\'') (h : Denotes true q t v) :
    ReadsAs env (q :: (t ++ [q])) v :=
  lit_read (h.body.lit hq)

example := C33_literal_partial Ex.env (c! '"') (b! "a'b") (b! "a'b") (.inl rfl)
  (.plain _ _ _ (by decide) (by decide) (by decide) (.plain _ _ _ (by decide) (by decide) (by decide)
    (.plain _ _ _ (by decide) (by decide) (by decide) .nil)))

/-- It fails for a lone surrogate before a pair: the pair is lost. -/
theorem C33_literal_fails : ¬ LiteralRule env := by
  intro h
  have d : Denotes false (c! '\'') (b! "\\uD800\\uD800\\uDC00") (utf8 0xD800 ++ (utf8 0x10000 ++ [])) := by
    have hi : Escape (c! '\'') (b! "\\uD800") 0xD800 :=
      .unicode _ _ _ _ 13 8 0 0 (.upper 3 (by decide)) (.digit 8 (by decide)) (.digit 0 (by decide)) (.digit 0 (by decide))
    have lo : Escape (c! '\'') (b! "\\uDC00") 0xDC00 :=
      .unicode _ _ _ _ 13 12 0 0 (.upper 3 (by decide)) (.upper 2 (by decide)) (.digit 0 (by decide)) (.digit 0 (by decide))
    refine .escape (b! "\\uD800") 0xD800 (b! "\\uD800\\uDC00") _ hi ?_ (by simp) (.pair (b! "\\uD800") 0xD800 (b! "\\uDC00") 0xDC00 [] [] hi lo (by decide) .nil)
    rintro ⟨e, u, f, w, t', h1, h2, h3, h4⟩
    obtain ⟨rfl, h5⟩ := hi.det (.inr rfl) h1 h4
    obtain ⟨rfl, _⟩ := hi.det (s := b! "\\uDC00") (.inr rfl) h2 h5
    revert h3; decide
  have h1 := (h _ _ _ (.inr rfl) d).2
  have h2 : parseScriptExpression env (b! "'\\uD800\\uD800\\uDC00'") = .ok (.str (utf8 0xD800 ++ utf8 0xD800 ++ utf8 0xDC00)) := by
    rfl
  rw [show c! '\'' :: (b! "\\uD800\\uD800\\uDC00" ++ [c! '\'']) = b! "'\\uD800\\uD800\\uDC00'" from rfl, h2] at h1
  simp only [Res.ok.injEq, Expr.str.injEq] at h1
  revert h1
  decide

/-- For every sequence of bytes there is a literal, in either kind of quotes. -/
theorem C33_every (q : UInt8) (hq : q = c! '"' ∨ q = c! '\'') (v : Bytes) : ReadsAs env (writeStr q v) v :=
  C33_literal_partial env q _ v hq (writeStr_denotes hq v)

example := C33_every Ex.env (c! '\'') (.inr rfl) (b! "it's\n")

/-- A literal in a path that is accepted has a closing quote, and neither control characters nor escapes
without a meaning before it. -/
theorem C33_rejects (q : UInt8) (hq : q = c! '"' ∨ q = c! '\'') (rest : Bytes) (p : Path)
    (h : parsePath env (b! "$[" ++ q :: rest) = .ok p) :
    ∃ t v next, rest = t ++ q :: next ∧ Denotes false q t v := by
  obtain ⟨lx, g, w, next, hg, hw, e⟩ := parsePath_word h
  obtain ⟨rfl, e1⟩ := white_head hg (Quote.not_space hq) e.symm
  obtain ⟨t, v, h1, rfl, _⟩ := pathWord_quote hw hq e1
  obtain ⟨v', h2⟩ := h1.denotes hq
  simp at e1
  exact ⟨t, v', next, e1.symm, h2⟩

example := C33_rejects Ex.env (c! '\'') (.inr rfl) (b! "a']") _ rfl

/-- The full statement for expressions: the same. -/
def ClosedRule : Prop :=
  ∀ (q : UInt8) (rest : Bytes) (e : Expr), q = c! '"' ∨ q = c! '\'' → parseScriptExpression env (q :: rest) = .ok e →
    ∃ t v next, rest = t ++ q :: next ∧ Denotes false q t v

/-- It is false: the literal `'\'` is taken as though it were `'\''`. -/
theorem C33_rejects_expr_fails : ¬ ClosedRule env := by
  intro h
  obtain ⟨t, v, next, h1, h2⟩ := h (c! '\'') (b! "\\'") (.str (b! "'")) (.inr rfl) rfl
  have hl := congrArg List.length h1
  match t, h1, h2 with
  | [], h1, h2 => simp at h1
  | [a], h1, h2 =>
    simp at h1
    obtain ⟨rfl, _⟩ := h1
    generalize ht : [(92 : UInt8)] = t at h2
    cases h2 with
    | nil => cases ht
    | plain c t v h3 h4 => cases ht; exact h4 rfl
    | pair e u f w t v h3 =>
      cases h3 <;> simp at ht
    | escape e u t v h3 =>
      cases h3 <;> simp at ht
  | a :: b :: t, h1, h2 => simp at hl

/-- What holds for expressions: either that, or the literal is the whole rest of the text, ends with an
escaped quote, and is taken as though the closing quote followed. -/
theorem C33_rejects_expr_partial (q : UInt8) (hq : q = c! '"' ∨ q = c! '\'') (rest : Bytes) (e : Expr)
    (h : parseScriptExpression env (q :: rest) = .ok e) :
    (∃ t v next, rest = t ++ q :: next ∧ Denotes false q t v) ∨
      (∃ t v, rest = t ++ [c! '\\', q] ∧ Denotes false q rest v) := by
  obtain ⟨ts, h1, h2⟩ := parseScript_inv h
  obtain ⟨lx, us, rfl, _⟩ := GExpr_first h1
  have key : ∀ {x : Bytes}, Written env.parseFloat (.expr lx :: us) (q :: x) →
      ∃ t v next, x = t ++ q :: next ∧ Denotes false q t v := by
    intro x hx
    generalize hy : q :: x = y at hx
    cases hx with
    | cons _ _ g w next hg hw _ =>
      cases hw with
      | expr _ _ _ hw =>
        obtain ⟨rfl, e⟩ := white_head hg (Quote.not_space hq) hy.symm
        obtain ⟨t, v, h1, rfl, _⟩ := exprWord_quote hw hq e
        obtain ⟨v', h2⟩ := h1.denotes hq
        simp at e
        exact ⟨t, v', next, e.symm, h2⟩
  rcases h2 with h2 | ⟨_, q', u, hq', h3, h4⟩
  · exact .inl (key h2)
  · obtain ⟨t, v, next, e1, hd⟩ := key h4
    rcases List.eq_nil_or_concat next with rfl | ⟨next, c, rfl⟩
    · obtain ⟨rfl, h5⟩ := List.append_inj' e1 rfl
      cases h5
      right
      cases u with
      | nil =>
        simp at h3
        obtain ⟨rfl, _⟩ := h3
        rcases hq with h | h <;> simp at h
      | cons a u =>
        simp at h3
        exact ⟨u, v, h3.2, hd⟩
    · left
      have : rest ++ [q'] = (t ++ q :: next) ++ [c] := by
        refine Eq.trans e1 ?_; simp
      obtain ⟨rfl, _⟩ := List.append_inj' this rfl
      exact ⟨t, v, next, rfl, hd⟩

/-- An emoji as a pair of surrogates, twice; a lone surrogate; a quote. -/
example : Denotes true (c! '"') (b! "\\\"x\\uD83D\\uDE00") (b! "\"x😀") :=
  .escape (b! "\\\"") 0x22 _ _ .quote
    (notPair (.inl rfl) .quote (by decide)) (fun _ h => absurd h (by decide))
    (.plain _ _ _ (by decide) (by decide) (by decide)
      (.pair (b! "\\uD83D") 0xD83D (b! "\\uDE00") 0xDE00 [] []
        (.unicode _ _ _ _ 13 8 3 13 (.upper 3 (by decide)) (.digit 8 (by decide)) (.digit 3 (by decide)) (.upper 3 (by decide)))
        (.unicode _ _ _ _ 13 14 0 0 (.upper 3 (by decide)) (.upper 4 (by decide)) (.digit 0 (by decide)) (.digit 0 (by decide)))
        (by decide) .nil))
example : writeStr (c! '\'') (b! "it's\n") = b! "'it\\'s\\u000a'" := by rfl
example : parsePath env (b! "$[" ++ c! '\'' :: b! "a']") = .ok [⟨.select, [.str (b! "a")]⟩] := rfl

/-! ### C34 Integer literals -/

/-- A sequence of digits in a path or an expression denotes its decimal value if that is at most 2^63-1. -/
theorem C34_digits (ds : Bytes) (hd : Digits ds) (n : Int64) (hn : n.toInt = decimal ds) :
    parsePath env (b! "$[" ++ (ds ++ b! "]")) = .ok [⟨.select, [.int n]⟩] ∧
    parsePath env (b! "$." ++ ds) = .ok [⟨.member, [.int n]⟩] ∧
    parseScriptExpression env ds = .ok (.int n) := by
  have hlt : decimal ds < 2 ^ 63 := by have := Int64.toInt_lt n; omega
  have he : n = Int64.ofNat (decimal ds) := by
    rw [← Int64.toInt_inj, hn, Int64.toInt_ofNat_of_lt hlt]
  subst he
  exact int_read hd hlt

example := C34_digits Ex.env (b! "0042") ⟨by simp, by simp [All, Digit]⟩ 42 (by decide)

/-- It is rejected if it exceeds that. -/
theorem C34_digits_overflow (ds : Bytes) (hd : Digits ds) (h : 2 ^ 63 ≤ decimal ds) :
    (∀ p, parsePath env (b! "$[" ++ (ds ++ b! "]")) ≠ .ok p) ∧ (∀ p, parsePath env (b! "$." ++ ds) ≠ .ok p) ∧
    ∀ e, parseScriptExpression env ds ≠ .ok e := by
  refine ⟨fun p hp => ?_, fun p hp => ?_, fun e he => ?_⟩
  · obtain ⟨lx, g, w, next, hg, hw, e⟩ := parsePath_word hp
    exact absurd (digits_small hg hw hd (by simp [Spec.Stops, Digit]) e) (by omega)
  · obtain ⟨lx, g, w, next, hg, hw, e⟩ := parsePath_dot (by
      intro c hc hc'
      have := hd.2 c (List.mem_of_mem_head? hc)
      rw [hc'] at this
      simp [Digit] at this) hp
    exact absurd (digits_small (s := []) hg hw hd (.nil _) (by simpa using e)) (by omega)
  · exact absurd (script_small hd he) (by omega)

example := C34_digits_overflow Ex.env (b! "9223372036854775808") ⟨by simp, by simp [All, Digit]⟩ (by decide)

/-- The full statement for integers with a sign in a path: each that fits in 64 bits denotes its value. -/
def SignedRule : Prop :=
  ∀ (w : Bytes) (n : Int64), SignedInt w n.toInt → parsePath env (b! "$[" ++ (w ++ b! "]")) = .ok [⟨.select, [.int n]⟩]

/-- It is false: `-9223372036854775807` is rejected. -/
theorem C34_signed_fails : ¬ SignedRule env := by
  intro h
  have h1 : ∀ c ∈ b! "9223372036854775807", Digit c := by simp [Digit]
  have h2 := h (b! "-9223372036854775807") (-9223372036854775807) (.neg (b! "9223372036854775807") ⟨by simp, h1⟩)
  obtain ⟨lx, g, w, next, hg, hw, e⟩ := parsePath_word h2
  have := neg_small (ds := b! "9223372036854775807") (s := b! "]") hg hw ⟨by simp, h1⟩ (by simp [Spec.Stops, Digit]) e
  revert this
  decide

/-- It holds except for the two least numbers. -/
theorem C34_signed_partial (w : Bytes) (n : Int64) (h : SignedInt w n.toInt) (hn : -(2 ^ 63 - 1) < n.toInt) :
    parsePath env (b! "$[" ++ (w ++ b! "]")) = .ok [⟨.select, [.int n]⟩] := by
  generalize hz : n.toInt = z at h
  cases h with
  | pos _ hd => exact (C34_digits env w hd n hz).1
  | neg ds hd =>
    have hlt : decimal ds < 2 ^ 63 - 1 := by omega
    refine parsePath_int.mpr ⟨_, .inr ⟨[], ds, White.nil, hd, hlt, rfl, ?_⟩, spaced3 _⟩
    rw [← Int64.toInt_inj, hz, Int64.toInt_neg, Int64.toInt_ofNat_of_lt (by omega)]
    rw [Int.bmod_eq_of_le (by omega) (by omega)]

example := C34_signed_partial Ex.env (b! "-17") (-17) (.neg (b! "17") ⟨by simp, by simp [All, Digit]⟩) (by decide)

/-- What does not fit in 64 bits is rejected, and so are the two least numbers. -/
theorem C34_signed_overflow (w : Bytes) (z : Int) (h : SignedInt w z) (hz : z ≤ -(2 ^ 63 - 1) ∨ 2 ^ 63 ≤ z) (p : Path) :
    parsePath env (b! "$[" ++ (w ++ b! "]")) ≠ .ok p := by
  intro hp
  obtain ⟨lx, g, w', next, hg, hw, e⟩ := parsePath_word hp
  cases h with
  | pos _ hd =>
    have := digits_small hg hw hd (by simp [Spec.Stops, Digit]) e
    omega
  | neg ds hd =>
    have := neg_small (ds := ds) hg hw hd (by simp [Spec.Stops, Digit]) e
    omega

example : Digits (b! "0042") ∧ (42 : Int64).toInt = decimal (b! "0042") := by
  refine ⟨⟨by simp, ?_⟩, by decide⟩
  simp [All, Digit]
example : SignedInt (b! "-17") (-17 : Int64).toInt := .neg (b! "17") ⟨by simp, by simp [All, Digit]⟩
example : (2 : Nat) ^ 63 ≤ decimal (b! "9223372036854775808") := by decide

/-! ### C36 Regular-expression literals -/

/-- The text between the slashes, with `\/` for a slash, is the regular expression, if that is one. -/
theorem C36_regexp (t : Bytes) (h : Closed t) (hv : env.reValid (unslash t) = true) :
    parseScriptExpression env (c! '/' :: (t ++ b! "/")) = .ok (.re (unslash t)) ∧
    parsePath env (b! "$[?(@=~/" ++ (t ++ b! "/)]")) =
      .ok [⟨.filter, [.expr (.inner .match_ [.current, .re (unslash t)])]⟩] := by
  have hw := written_re (pf := env.parseFloat) (reBody_iff.mpr ⟨h, rfl⟩)
  refine ⟨parseScript_written hw (gatom_expr (.re _ hv)), ?_⟩
  have h2 : Written env.parseFloat ([.x (c! '@'), .expr (.plain .match_)] ++ [.x (c! '/'), .regexp (unslash t)]) (b! "@=~" ++ c! '/' :: (t ++ b! "/")) := by
    refine Written.join ?_ hw (neutral_of (by decide)) (by intro t ht; cases ht; rfl)
    refine .cons _ _ [] (b! "@") (b! "=~") White.nil (.expr _ _ _ (.punct _ _ (by decide))) ?_
    exact .cons _ _ [] (b! "=~") [] White.nil (.expr _ _ _ (.match_ _)) (.nil _ White.nil)
  have := parsePath_filter h2 (e := .inner .match_ [.current, .re (unslash t)])
    (.binary 0 [_] _ _ _ 3 _ _ (by omega) .match_ (.unary _ _ _ (.primary _ _ (.atom _ _ .current)))
      (.unary _ _ _ (.primary _ _ (.atom _ _ (.re _ hv)))))
  simpa using this

example := C36_regexp Ex.env (b! "a\\/b") (by simp [Closed]) rfl

/-- It is rejected if it is not a regular expression. -/
theorem C36_regexp_invalid (t : Bytes) (h : Closed t) (hv : env.reValid (unslash t) = false) (e : Expr) :
    parseScriptExpression env (c! '/' :: (t ++ b! "/")) ≠ .ok e := by
  intro he
  obtain ⟨t', next, h1, h2, h3⟩ := script_re he
  rw [closed_unique (next := []) h h1 h2, h3] at hv
  cases hv

example := C36_regexp_invalid { Ex.env with reValid := fun _ => false } (b! "(") (by simp [Closed]) rfl

/-- An expression that begins with a slash and is accepted has a closing slash. -/
theorem C36_unterminated (rest : Bytes) (e : Expr) (h : parseScriptExpression env (c! '/' :: rest) = .ok e) :
    ∃ t next, Closed t ∧ rest = t ++ c! '/' :: next ∧ env.reValid (unslash t) = true := script_re h

example : Closed (b! "a\\/b") ∧ unslash (b! "a\\/b") = b! "a/b" := by simp [Closed, unslash]

end JP
