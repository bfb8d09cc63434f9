import Verif.Proof.Literals
import Verif.Proof.Layout
/-!
Script expressions in a path, for C67.
-/
namespace JP
open Spec

variable {env : Env} {pf : Bytes → Option F64}

theorem Spec.Stops.prefix {p : UInt8 → Prop} {x y : Bytes} (h : Spec.Stops p (x ++ y)) : Spec.Stops p x := by
  intro c hc
  refine h c ?_
  cases x with
  | nil => cases hc
  | cons d x => exact hc

theorem Spec.PathWord.prefix {lx : Lexeme} {w x y : Bytes} (h : PathWord lx w (x ++ y)) : PathWord lx w x := by
  generalize hz : x ++ y = z at h
  cases h with
  | punct c _ hc => exact .punct c _ hc
  | dot _ h => subst hz; exact .dot _ h.prefix
  | nest => exact .nest _
  | filter => exact .filter _
  | str _ v _ h => exact .str _ v _ h
  | int _ _ h1 h2 h3 => subst hz; exact .int _ _ h1 h2.prefix h3
  | neg g ds _ h0 h1 h2 h3 => subst hz; exact .neg g ds _ h0 h1 h2.prefix h3
  | name c v _ h1 h2 h3 => subst hz; exact .name c v _ h1 h2 h3.prefix

theorem Spec.ExprWord.prefix {lx : Lexeme} {w x y : Bytes} (h : ExprWord pf lx w (x ++ y)) : ExprWord pf lx w x := by
  generalize hz : x ++ y = z at h
  cases h with
  | punct c _ hc => exact .punct c _ hc
  | alone c d _ h1 h2 => subst hz; exact .alone c d _ h1 h2.prefix
  | str _ v _ h => exact .str _ v _ h
  | int _ _ h1 h2 h3 => subst hz; exact .int _ _ h1 h2.prefix h3
  | real _ f _ h1 h2 =>
    subst hz
    generalize hz : x ++ y = z at h1
    cases h1 with
    | mk ds fs ex _ k1 k2 k3 k4 k5 =>
      subst hz
      exact .real _ f _ (.mk ds fs ex _ k1 k2 k3 k4.prefix fun e => (k5 e).prefix) h2
  | name c v _ h1 h2 h3 => subst hz; exact .name c v _ h1 h2 h3.prefix
  | _ => constructor

theorem Spec.Word.prefix {t : Token} {w x y : Bytes} (h : Word pf t w (x ++ y)) : Word pf t w x := by
  generalize hz : x ++ y = z at h
  cases h with
  | path lx w _ h => subst hz; exact .path lx w _ h.prefix
  | expr lx w _ h => subst hz; exact .expr lx w _ h.prefix
  | regexp t v _ h => exact .regexp t v _ h

/-- The tokens before a token are written in the text before it. -/
theorem Spec.Written.split {t : Token} {us : List Token} : ∀ (ts : List Token) {text : Bytes}, Written pf (ts ++ t :: us) text →
    ∃ a w next, text = a ++ (w ++ next) ∧ Written pf ts a ∧ Word pf t w next ∧ Written pf us next := by
  intro ts
  induction ts with
  | nil =>
    intro text h
    cases h with
    | cons _ _ g w next hg hw hn =>
      refine ⟨g, w, next, rfl, .nil _ ?_, hw, hn⟩
      cases t with
      | path => exact hg
      | expr => exact hg
      | regexp => cases hg; exact White.nil
  | cons v ts ih =>
    intro text h
    cases h with
    | cons _ _ g w next hg hw hn =>
      obtain ⟨a, w', next', rfl, h1, h2, h3⟩ := ih hn
      exact ⟨g ++ (w ++ a), w', next', by simp, .cons v ts g w a hg hw.prefix h1, h2, h3⟩

/-- A text that ends with the last token. -/
theorem written_init {ts : List Token} {t : Token} {s : Bytes} {c : UInt8} (h : Written pf (ts ++ [t]) (s ++ [c])) (hc : ¬ Space c)
    (ht : ∀ w next, Word pf t w next → w = [c]) : Written pf ts s := by
  obtain ⟨a, w, next, h1, h2, h3, h4⟩ := h.split
  cases ht _ _ h3
  have hn := h4.nil_inv
  rcases List.eq_nil_or_concat next with rfl | ⟨n, d, rfl⟩
  · exact List.append_cancel_right h1 ▸ h2
  · exfalso
    rw [List.concat_eq_append, show a ++ ([c] ++ (n ++ [d])) = (a ++ ([c] ++ n)) ++ [d] by simp] at h1
    obtain ⟨_, e⟩ := List.append_inj' h1 rfl
    cases e
    exact hc (hn c (by simp))

theorem word_paren {w next : Bytes} (h : Word pf (.x (c! ')')) w next) : w = b! ")" := by
  cases h with
  | expr _ _ _ h => cases h with
    | punct => rfl
    | alone _ _ _ h => rcases h with ⟨h, _⟩ | ⟨h, _⟩ | ⟨h, _⟩ | ⟨h, _⟩ | ⟨h, _⟩ | ⟨h, _⟩ <;> cases h

theorem word_bracket {w next : Bytes} (h : Word pf (.p (c! ']')) w next) : w = b! "]" := by
  cases h with
  | path _ _ _ h => cases h with
    | punct => rfl

theorem written_close1 {ts : List Token} {s : Bytes} (h : Written pf (ts ++ [.x (c! ')')]) (s ++ b! ")")) : Written pf ts s :=
  written_init h (by simp [Space]) fun _ _ => word_paren

/-- A text that ends with `)]`, and whose last tokens these are. -/
theorem written_close {ts : List Token} {s : Bytes} (h : Written pf (ts ++ [.x (c! ')'), .p (c! ']')]) (s ++ b! ")]")) : Written pf ts s := by
  rw [show ts ++ [.x (c! ')'), .p (c! ']')] = (ts ++ [.x (c! ')')]) ++ [.p (c! ']')] by simp,
    show s ++ b! ")]" = (s ++ b! ")") ++ b! "]" by simp] at h
  exact written_close1 (written_init h (by simp [Space]) fun _ _ => word_bracket)

theorem written_p {c : UInt8} {ts : List Token} {x : Bytes} (hc : c ∈ b! "()[]*$:,") (h : Written env.parseFloat (.p c :: ts) (c :: x)) :
    Written env.parseFloat ts x :=
  (Spec.Written.path_inv (g := []) (w := [c]) (next := x) h White.nil (.punct _ _ hc)).2

/-- An expression that has been read on its own. -/
theorem script_written {s : Bytes} {e : Expr} (h : parseScriptExpression env s = .ok e)
    (hq : ∀ q u, q = c! '\'' ∨ q = c! '"' → s ≠ u ++ [c! '\\', q]) : ∃ ts, Written env.parseFloat ts s ∧ GExpr env.reValid 0 ts e := by
  obtain ⟨ts, h1, h2 | ⟨_, q, u, h3, h4, _⟩⟩ := parseScript_inv h
  · exact ⟨ts, h2, h1⟩
  · exact absurd h4 (hq q u (by rcases h3 with h | h <;> simp [h]))

/-- In a path, before whatever closes it. -/
theorem written_paren {ts us : List Token} {s b : Bytes} (h : Written env.parseFloat ts s) (hu : Written env.parseFloat us b) :
    Written env.parseFloat (ts ++ .x (c! ')') :: us) (s ++ c! ')' :: b) :=
  h.join (.punctX (by decide) hu) (neutral_of (by decide)) (by intro t ht; cases ht; rfl)

end JP
