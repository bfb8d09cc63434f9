import Verif.Props.Ex
import Verif.Props.Core
import Verif.Proof.BlameParse
import Verif.Proof.KRfl
/-!
C91: what the messages of parse errors say is true of the text.
-/
set_option linter.unusedSimpArgs false
namespace JP
open Spec

/-! ### C91 The messages of Compile -/

/-- If a message says that a character is unexpected at an offset, the character is there. -/
def C91 (env : Env) : Prop :=
  ∀ (text q n : Bytes) (k : Nat) (e : CompileErr), Compile env text = .err e →
    e.text env = b! "unexpected character " ++ q ++ b! " at offset " ++ n → Numeral k n →
      ∃ c, text[k]? = some c ∧ q = quoteRune env c.toNat

/-- After a minus sign it is the next one. -/
theorem C91_fails : ¬ C91 Ex.env := by
  intro h
  obtain ⟨c, h1, h2⟩ := h (b! "$[-x]") (b! "'x'") (b! "2") 2 _ rfl (by krfl) ⟨⟨by simp, by intro c hc; simp at hc; subst hc; exact ⟨by decide, by decide⟩⟩, rfl, by simp⟩
  simp at h1
  subst h1
  exact absurd h2 (by decide)

/-- It can also be the one before: here a bracket. -/
example : (CompileErr.text Ex.env <$> match Compile Ex.env (b! "$[-") with | .err e => some e | _ => none) =
    some (b! "unexpected character '-' at offset 1") := by krfl

/-- What a message of Compile says is in the text. -/
theorem C91_message (env : Env) (text : Bytes) (e : CompileErr) (h : Compile env text = .err e) :
    e.text env = b! "program has too many values" ∨ Message env text (e.text env) := by
  unfold Compile at h
  split at h
  · next hp => cases h; exact .inr (parsePath_blame hp)
  · cases h
  · cases h
  · split at h
    · next x _ => cases h; cases x; exact .inl rfl
    · cases h
    · cases h
    · cases h

example : (CompileErr.text Ex.env <$> match Compile Ex.env (b! "$.a[0:1 x]") with | .err e => some e | _ => none) =
    some (b! "unexpected token identifier at offset 8") := by krfl
example := C91_message Ex.env (b! "$.a[0:1 x]") _ rfl

/-- So is what a message for an expression by itself says. -/
theorem C91_script (env : Env) (text : Bytes) (e : PErr) (h : parseScriptExpression env text = .err e) :
    Message env text (e.text env) := parseScriptExpression_blame h

example := C91_script Ex.env (b! "1 2") _ rfl
example : (PErr.text Ex.env <$> match parseScriptExpression Ex.env (b! "1 2") with | .err e => some e | _ => none) =
    some (b! "missing operator at offset 2, before integer literal") := by krfl

theorem suffix_digits {q q' n n' : Bytes} {x : UInt8} (hx : ¬ Digit x) (hn : All Digit n) (hn' : All Digit n')
    (h : q ++ x :: n = q' ++ x :: n') : q = q' ∧ n = n' := by
  rcases List.append_eq_append_iff.1 h with ⟨a, h1, h2⟩ | ⟨a, h1, h2⟩
  · cases a with
    | nil => simp at h1 h2; exact ⟨h1.symm, h2⟩
    | cons y a =>
      simp at h2
      exact absurd (hn x (by rw [h2.2]; simp)) hx
  · cases a with
    | nil => simp at h1 h2; exact ⟨h1, h2.symm⟩
    | cons y a =>
      simp at h2
      exact absurd (hn' x (by rw [h2.2]; simp)) hx

theorem shown_start {text : Bytes} {off : Nat} {s : Bytes} (h : NamedAt text off s) : ∃ c t, s = c :: t ∧ c ≠ c! 'c' := by
  cases h with
  | token s w h _ =>
    cases h with
    | sign w hw =>
      have : ∀ w ∈ signs, w ≠ [] ∧ w.head? ≠ some (c! 'c') := by decide
      have := this s hw
      cases s with
      | nil => exact absurd rfl this.1
      | cons c t => exact ⟨c, t, rfl, by simpa using this.2⟩
    | name => exact ⟨_, _, rfl, by decide⟩
    | str => exact ⟨_, _, rfl, by decide⟩
    | int => exact ⟨_, _, rfl, by decide⟩
    | real => exact ⟨_, _, rfl, by decide⟩
  | end_ => exact ⟨_, _, rfl, by decide⟩
  | invalid => exact ⟨_, _, rfl, by decide⟩

/-- In a text without minus signs the character is at the offset. (Without slashes as well: the messages of package
regexp can be anything.) -/
theorem C91_partial (env : Env) (text q n : Bytes) (k : Nat) (e : CompileErr) (h : Compile env text = .err e)
    (hm : e.text env = b! "unexpected character " ++ q ++ b! " at offset " ++ n) (hn : Numeral k n)
    (h1 : c! '-' ∉ text) (h2 : c! '/' ∉ text) : ∃ c, text[k]? = some c ∧ q = quoteRune env c.toNat := by
  rcases C91_message env text e h with hx | hx
  · rw [hm] at hx; simp at hx
  · generalize CompileErr.text env e = m at hx hm
    cases hx with
    | lex m hx =>
      cases hx with
      | char a c b n' ht hn' =>
        have : (b! "unexpected character " ++ quoteRune env c.toNat ++ b! " at offset") ++ c! ' ' :: n' =
            (b! "unexpected character " ++ q ++ b! " at offset") ++ c! ' ' :: n := by simpa using hm
        obtain ⟨e1, rfl⟩ := suffix_digits (by simp [Digit]) hn'.1.2 hn.1.2 this
        have hq : quoteRune env c.toNat = q := by simpa using e1
        refine ⟨c, ?_, hq.symm⟩
        rw [← hn.2.1, hn'.2.1, ht]
        simp
      | minus a g c b n' ht => exact absurd (by rw [ht]; simp) h1
      | minusEnd a g c b n' ht => exact absurd (by rw [ht]; simp) h1
      | minusBig a g ds b n' ht => exact absurd (by rw [ht]; simp) h1
      | _ => simp at hm
    | unexpected off n' s _ hs =>
      obtain ⟨c, t, rfl, hc⟩ := shown_start hs
      simp at hm
      exact absurd hm.1 hc
    | regexp a t v b n' ht => exact absurd (by rw [ht]; simp) h2
    | _ => simp at hm

example := C91_partial Ex.env (b! "$.a[0,#]") (b! "'#'") (b! "6") 6 _ rfl (by krfl)
  ⟨⟨by simp, by intro c hc; simp at hc; subst hc; exact ⟨by decide, by decide⟩⟩, rfl, by simp⟩ (by decide) (by decide)

end JP
