import Verif.Proof.Blame
import Verif.Proof.ParseWF
/-! Tokens and errors, as messages name them. -/
set_option linter.unusedSimpArgs false
namespace JP
open Spec
variable {env : Env}

theorem char_text {c : UInt8} {off : Nat} : LexErr.text env (.unexpectedChar (some c) off) =
    b! "unexpected character " ++ quoteRune env c.toNat ++ b! " at offset " ++ natToBytes off := by
  simp [LexErr.text, lookRune, offsetText]

theorem query_text {c : UInt8} {off : Nat} : LexErr.text env (.charAfter (some c) (c! '(') off) =
    b! "unexpected char " ++ quoteRune env c.toNat ++ b! " after '(' at offset " ++ natToBytes off := by
  have : quoteRune env 40 = b! "'('" := rfl
  simp [LexErr.text, lookRune, offsetText, this]

theorem query_end_text {off : Nat} : LexErr.text env (.charAfter none (c! '(') off) =
    b! "unexpected char " ++ quoteRune env 0xFFFD ++ b! " after '(' at offset " ++ natToBytes off := by
  have : quoteRune env 40 = b! "'('" := rfl
  simp [LexErr.text, lookRune, offsetText, this]

theorem char_message {b rest : Bytes} {c : UInt8} :
    LexMessage env (Rd.text ⟨c :: b, rest⟩) (LexErr.text env (.unexpectedChar (some c) (Rd.offset ⟨c :: b, rest⟩))) := by
  rw [char_text]
  refine .char b.reverse c rest _ (by simp [Rd.text]) ?_
  have := numeral_natToBytes b.length
  simpa [Rd.offset] using this

theorem isNext_plain {c : UInt8} {t f : Tok} {r : Rd} (hf : f ≠ .error) : (isNext c t f r).1.err = none := by
  unfold isNext
  repeat' split
  · rfl
  · next h => exact absurd (by simpa using h) hf
  · rfl

theorem lexPath_message {r0 r : Rd} {lx : Lexeme} {e : LexErr} (h : lexPath env r0 = some (lx, r)) (he : lx.err = some e) :
    LexMessage env r0.text (e.text env) := by
  obtain ⟨b, text⟩ := r0
  obtain ⟨g, next, hg, hn, e1, e2⟩ := Rd.ws_split ⟨b, text⟩
  simp only at e1 e2
  subst e1
  unfold lexPath at h
  rw [e2] at h
  cases next with
  | nil => simp at h; rw [← h.1] at he; simp [Lexeme.plain] at he
  | cons c cs =>
    have ht : Rd.text ⟨b, g ++ c :: cs⟩ = Rd.text ⟨c :: (g.reverse ++ b), cs⟩ := by simp [Rd.text]
    rw [ht]
    rw [Rd.get_cons] at h
    simp only at h
    by_cases h1 : isPathPunct c = true
    · rw [if_pos h1] at h
      cases h
      simp [Lexeme.plain] at he
    rw [if_neg h1] at h
    by_cases h2 : c = c! '.'
    · subst h2
      rw [if_pos (by simp)] at h
      simp only [Option.some.injEq] at h
      have := isNext_plain (c := c! '.') (t := .nest) (f := .ch (c! '.')) (r := ⟨c! '.' :: (g.reverse ++ b), cs⟩) (by simp)
      rw [h] at this
      rw [this] at he; cases he
    rw [if_neg (by simpa using h2)] at h
    by_cases h3 : c = c! '?'
    · subst h3
      rw [if_pos (by simp)] at h
      simp only [Option.some.injEq] at h
      unfold isNext at h
      split at h
      · cases h; simp [Lexeme.plain] at he
      · next hl =>
        rw [if_pos (by simp)] at h
        cases h
        simp [Lexeme.fail] at he
        subst he
        cases cs with
        | nil =>
          show LexMessage env _ (LexErr.text env (.charAfter none (c! '(') _))
          rw [query_end_text]
          refine .queryEnd (g.reverse ++ b).reverse _ (by simp [Rd.text]) ?_
          have := numeral_natToBytes (g.reverse ++ b).length
          simpa [Rd.offset, Nat.add_comm] using this
        | cons d cs =>
          show LexMessage env _ (LexErr.text env (.charAfter (some d) (c! '(') _))
          rw [query_text]
          refine .query (g.reverse ++ b).reverse d cs _ (by simp [Rd.text]) (by simpa [Rd.look] using hl) ?_
          have := numeral_natToBytes (g.reverse ++ b).length
          simpa [Rd.offset, Nat.add_comm] using this
    rw [if_neg (by simpa using h3)] at h
    by_cases h4 : c = c! '"' ∨ c = c! '\''
    · rw [if_pos (by simpa using h4)] at h
      exact lexQuoted_err h4 h he
    rw [if_neg (by simpa using h4)] at h
    by_cases h5 : c = c! '-'
    · subst h5
      rw [if_pos (by simp)] at h
      obtain ⟨g', next, hg', hn', e3, e4⟩ := Rd.ws_split ⟨c! '-' :: (g.reverse ++ b), cs⟩
      simp only at e3 e4
      subst e3
      rw [e4] at h
      have htt : ∀ x, Rd.text ⟨c! '-' :: (g.reverse ++ b), x⟩ = (b.reverse ++ g) ++ c! '-' :: x := by simp [Rd.text]
      rw [htt]
      have hlen : (b.reverse ++ g).length = (g.reverse ++ b).length := by simp; omega
      cases next with
      | nil =>
        simp only [Rd.get_nil, Option.any_none, Bool.not_false, if_true, tokenErr, Option.some.injEq] at h
        obtain ⟨p, c, hp⟩ : ∃ p c, c! '-' :: g' = p ++ [c] := ⟨_, _, (List.dropLast_append_getLast (List.cons_ne_nil _ _)).symm⟩
        have hb : g'.reverse ++ c! '-' :: (g.reverse ++ b) = c :: (p.reverse ++ (g.reverse ++ b)) := by
          have : (c! '-' :: g').reverse = c :: p.reverse := by rw [hp]; simp
          simp at this
          rw [← List.singleton_append, ← List.append_assoc, this]; simp
        rw [hb] at h
        simp only [Rd.unget, Rd.look, List.head?_cons] at h
        cases h
        simp [Lexeme.fail] at he
        subst he
        rw [char_text, List.append_nil]
        refine .minusEnd _ g' c p _ rfl hg' hp ?_
        have hl : p.length = g'.length := by have := congrArg List.length hp; simp at this; omega
        have := numeral_natToBytes ((b.reverse ++ g).length + g'.length - 1)
        convert this using 2
        simp [Rd.offset, hl]; omega
      | cons d ds =>
        rw [Rd.get_cons] at h
        simp only at h
        by_cases hd : isDigit d = true
        · rw [if_neg (by simp [hd])] at h
          have hd' := isDigit_iff.mp hd
          cases hl : lexNumber env false ⟨d :: (g'.reverse ++ c! '-' :: (g.reverse ++ b)), ds⟩ with
          | mk fol r1 =>
            rw [hl] at h
            simp only at h
            by_cases hf : fol.tok = .int
            · rw [if_neg (by simpa using hf)] at h
              have hferr : fol.err = none := by
                have := lexNumber_shape env false ⟨d :: (g'.reverse ++ c! '-' :: (g.reverse ++ b)), ds⟩
                rw [hl] at this
                cases this <;> simp_all [Lexeme.fail]
              obtain ⟨w, k1, k2, k3, k4⟩ := lexNumber_inv hd' hl hferr
              rcases k4 with ⟨k4, k5, k6, rfl⟩ | ⟨k4, _⟩
              · simp only at h
                by_cases hm : Int64.ofNat (decimal w) = Int64.maxValue
                · rw [if_pos (by simpa using hm)] at h
                  cases h; simp [Lexeme.fail] at he
                  subst he
                  rw [k1]
                  refine .overflow _ g' w _ rfl hg' k4 k3 ?_
                  have := congrArg Int64.toInt hm
                  rw [Int64.toInt_ofNat_of_lt k6] at this
                  have h2 : Int64.maxValue.toInt = 2 ^ 63 - 1 := by decide
                  rw [h2] at this
                  omega
                · rw [if_neg (by simpa using hm)] at h
                  cases h
                  simp at he
              · cases k4
            · rw [if_pos (by simpa using hf)] at h
              obtain ⟨e', hferr⟩ : ∃ e', fol.err = some e' := by
                have := lexNumber_shape env false ⟨d :: (g'.reverse ++ c! '-' :: (g.reverse ++ b)), ds⟩
                rw [hl] at this
                cases hfe : fol.err with
                | some e' => exact ⟨e', rfl⟩
                | none =>
                  obtain ⟨w, k1, k2, k3, k4⟩ := lexNumber_inv hd' hl hfe
                  rcases k4 with ⟨k4, k5, k6, rfl⟩ | ⟨k4, _⟩
                  · exact absurd rfl hf
                  · cases k4
              simp only [tokenErr, Option.some.injEq, Prod.mk.injEq] at h
              rw [← h.1] at he
              simp [Lexeme.fail] at he
              subst he
              have hreal : ∀ {w next}, RealText w next → (lexNumber env false ⟨d :: (g'.reverse ++ c! '-' :: (g.reverse ++ b)), ds⟩).1.err ≠ some (.parseFloat w) := by
                intro w next _ hc
                unfold lexNumber at hc
                simp only [Bool.not_false, Bool.true_or, if_true] at hc
                split at hc <;> simp [Lexeme.fail] at hc
              have hbad : (lexNumber env false ⟨d :: (g'.reverse ++ c! '-' :: (g.reverse ++ b)), ds⟩).1.err ≠ some .badReal := by
                intro hc
                unfold lexNumber at hc
                simp only [Bool.not_false, Bool.true_or, if_true] at hc
                split at hc <;> simp [Lexeme.fail] at hc
              rcases lexNumber_err hd' hl hferr with ⟨ds', next, j1, j2, j3, j4, rfl, j5⟩ | ⟨w, next, j1, j2, j3, rfl⟩ |
                ⟨ds', fs, c, sign, next, j1, j2, j3, j4, j5, j6, rfl⟩
              · rw [char_text, j1]
                have hq : quoteRune env (c! '-').toNat = b! "'-'" := rfl
                rw [hq]
                refine .minusBig _ g' ds' next _ rfl hg' j2 j3 j4 ?_
                have := numeral_natToBytes ((b.reverse ++ g).length + g'.length + ds'.length)
                convert this using 2
                have hj := j2.1
                have : 0 < ds'.length := List.length_pos_iff.2 hj
                simp [Rd.offset, j5]; omega
              · exact absurd (by rw [hl]; exact hferr) (hreal j2)
              · exact absurd (by rw [hl]; exact hferr) hbad
        · rw [if_pos (by simp [hd])] at h
          simp only [Rd.unget, Rd.look, List.head?_cons, tokenErr, Option.some.injEq, Prod.mk.injEq] at h
          rw [← h.1] at he
          simp [Lexeme.fail] at he
          subst he
          rw [char_text]
          refine .minus _ g' d ds _ rfl hg' (fun hc => hd (isDigit_iff.2 hc)) (hn' d rfl) ?_
          have := numeral_natToBytes ((b.reverse ++ g).length + g'.length)
          convert this using 2
          simp [Rd.offset]; omega
    rw [if_neg (by simpa using h5)] at h
    by_cases h6 : isDigit c = true
    · rw [if_pos h6] at h
      simp only [Option.some.injEq] at h
      exact lexNumber_message (isDigit_iff.mp h6) h he
    rw [if_neg h6] at h
    by_cases h7 : isLetter c = true
    · rw [if_pos h7] at h
      simp only [Option.some.injEq, lexID] at h
      cases h
      simp at he
    rw [if_neg h7] at h
    cases h; simp [Lexeme.fail] at he
    subst he
    exact char_message

theorem lexExpr_message {r0 r : Rd} {lx : Lexeme} {e : LexErr} (h : lexExpr env r0 = some (lx, r)) (he : lx.err = some e) :
    LexMessage env r0.text (e.text env) := by
  obtain ⟨b, text⟩ := r0
  obtain ⟨g, next, hg, hn, e1, e2⟩ := Rd.ws_split ⟨b, text⟩
  simp only at e1 e2
  subst e1
  unfold lexExpr at h
  rw [e2] at h
  cases next with
  | nil => simp at h; rw [← h.1] at he; simp [Lexeme.plain] at he
  | cons c cs =>
    have ht : Rd.text ⟨b, g ++ c :: cs⟩ = Rd.text ⟨c :: (g.reverse ++ b), cs⟩ := by simp [Rd.text]
    rw [ht]
    rw [Rd.get_cons] at h
    simp only at h
    have hnx : ∀ (a : UInt8) (t f : Tok) (r1 : Rd), f ≠ .error → some (isNext a t f r1) = some (lx, r) → False := by
      intro a t f r1 hf hx
      have := isNext_plain (c := a) (t := t) (r := r1) hf
      simp only [Option.some.injEq] at hx
      rw [hx] at this
      rw [this] at he; cases he
    split at h
    · cases h; simp [Lexeme.plain] at he
    split at h
    · exact (hnx _ _ _ _ (by simp) h).elim
    split at h
    · exact (hnx _ _ _ _ (by simp) h).elim
    split at h
    · exact (hnx _ _ _ _ (by simp) h).elim
    split at h
    · exact (hnx _ _ _ _ (by simp) h).elim
    split at h
    · split at h
      · exact (hnx _ _ _ _ (by simp) h).elim
      · exact (hnx _ _ _ _ (by simp) h).elim
    split at h
    · exact (hnx _ _ _ _ (by simp) h).elim
    split at h
    · next h4 => exact lexQuoted_err (by simpa [Quote] using h4) h he
    split at h
    · next h6 =>
      simp only [Option.some.injEq] at h
      exact lexNumber_message (isDigit_iff.mp h6) h he
    split at h
    · simp only [Option.some.injEq, lexID] at h
      cases h
      simp at he
    · cases h; simp [Lexeme.fail] at he
      subst he
      exact char_message

end JP
