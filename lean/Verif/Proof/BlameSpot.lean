import Verif.Proof.BlameLex
/-! What is known of the token just before the place of a reader. -/
set_option linter.unusedSimpArgs false
namespace JP
open Spec
variable {env : Env}

/-- What messages say of the token that ends at `r` is true of the text. -/
structure Spot (env : Env) (lx : Lexeme) (r : Rd) : Prop where
  msg : ∀ e, lx.err = some e → LexMessage env r.text (e.text env)
  named : NamedAt r.text r.offset lx.tok.text
  err : lx.err.isSome = true ↔ lx.tok = .error
  ch : ∀ c, lx.tok = .ch c → ∃ b, r.before = c :: b
  filter : lx.tok = .filter → ∃ b, r.before = c! '(' :: c! '?' :: b
  name : lx.tok = .id → ∃ s, lx.val = .str s ∧ EndsAt r.text r.offset s
  shown : lx.tok ≠ .real → lx.tok ≠ .eof → lx.tok ≠ .error → Message env r.text (b! "unexpected token " ++ lx.text env)

theorem Spot.noErr {lx : Lexeme} {r : Rd} (h : Spot env lx r) (ht : lx.tok ≠ .error) : lx.err = none := by
  cases he : lx.err with
  | none => rfl
  | some e => exact absurd (h.err.1 (by simp [he])) ht

theorem offset_le (r : Rd) : r.offset ≤ r.text.length - 1 := by
  simp [Rd.offset, Rd.text]; omega

theorem endsAt_read {b g w : Bytes} {r : Rd} (hb : r.before = (g ++ w).reverse ++ b) (hw : w ≠ []) : EndsAt r.text r.offset w := by
  refine ⟨b.reverse ++ g, r.rest, by simp [Rd.text, hb], ?_⟩
  have := List.length_pos_iff.2 hw
  simp [Rd.offset, hb]; omega

theorem spot_fail {e : LexErr} {r : Rd} (h : LexMessage env r.text (e.text env)) : Spot env (.fail e) r where
  msg e' he := by simp [Lexeme.fail] at he; subst he; exact h
  named := .invalid (offset_le r)
  err := by simp [Lexeme.fail]
  ch c hc := by simp [Lexeme.fail] at hc
  filter hc := by simp [Lexeme.fail] at hc
  name hc := by simp [Lexeme.fail] at hc
  shown _ _ h := by simp [Lexeme.fail] at h

theorem spot_eof {r : Rd} (h : r.rest = []) : Spot env (.plain .eof) r where
  msg e' he := by simp [Lexeme.plain] at he
  named := .end_ (by simp [Rd.offset, Rd.text, h])
  err := by simp [Lexeme.plain]
  ch c hc := by simp [Lexeme.plain] at hc
  filter hc := by simp [Lexeme.plain] at hc
  name hc := by simp [Lexeme.plain] at hc
  shown _ h := by simp [Lexeme.plain] at h

theorem spot_sign {t : Tok} {b g w : Bytes} {r : Rd} (hb : r.before = (g ++ w).reverse ++ b) (hw : w ∈ signs) (ht : t.text = w)
    (h1 : t ≠ .error ∧ t ≠ .id ∧ t ≠ .eof) (h2 : t.hasVal = false) (h3 : ∀ c, t = .ch c → w = [c]) :
    Spot env (.plain t) r where
  msg e' he := by simp [Lexeme.plain] at he
  named := by
    refine .token _ w ?_ (endsAt_read hb (by rintro rfl; exact absurd hw (by decide)))
    show Shown t.text w
    rw [ht]; exact .sign _ hw
  err := by simp [Lexeme.plain, h1.1]
  ch c hc := by
    have := h3 c hc; subst this
    exact ⟨g.reverse ++ b, by simp [hb]⟩
  filter hc := by
    have hc : t = .filter := hc
    subst hc
    subst ht
    exact ⟨g.reverse ++ b, by simp [hb, Tok.text]⟩
  name hc := absurd hc h1.2.1
  shown _ _ _ := by
    have : (Lexeme.plain t).text env = w := by simp [Lexeme.text, Lexeme.plain, h2, ht]
    rw [this]
    exact .sign _ w hw (endsAt_read hb (by rintro rfl; exact absurd hw (by decide)))

theorem strLit_quotes {w v : Bytes} (h : StrLit w v) : ∃ q t, Quote q ∧ w = q :: (t ++ [q]) := by
  cases h with
  | single t v _ => exact ⟨_, t, .inr rfl, rfl⟩
  | double t v _ => exact ⟨_, t, .inl rfl, rfl⟩

theorem spot_str {v b g w : Bytes} {r : Rd} (hb : r.before = (g ++ w).reverse ++ b) (h : StrLit w v ∨ (r.rest = [] ∧ Unclosed w v)) :
    Spot env (strTok v) r where
  msg e' he := by simp [strTok] at he
  named := by
    have : ∃ q t, Quote q ∧ w = q :: (t ++ [q]) := by
      rcases h with h | ⟨_, q, t, hq, rfl, _⟩
      · exact strLit_quotes h
      · exact ⟨q, t ++ [c! '\\'], hq, by simp⟩
    obtain ⟨q, t, hq, rfl⟩ := this
    exact .token _ _ (.str q t hq) (endsAt_read hb (by simp))
  err := by simp [strTok]
  ch c hc := by simp [strTok] at hc
  filter hc := by simp [strTok] at hc
  name hc := by simp [strTok] at hc
  shown _ _ _ := by
    have : b! "unexpected token " ++ (strTok v).text env = b! "unexpected token string literal(" ++ v ++ b! ")" := by
      simp [Lexeme.text, strTok, Tok.hasVal, Tok.text, LVal.text]
    rw [this]
    rcases h with h | ⟨hr, q, t, hq, rfl, h⟩
    · obtain ⟨q, t, hq, e⟩ := strLit_quotes h
      exact .str _ w v h (endsAt_read hb (by simp [e]))
    · refine .strEnd (b.reverse ++ g) q t v hq (by simp [Rd.text, hb, hr]) (by simpa using h)

theorem spot_int {n : Int64} {b g w : Bytes} {r : Rd} (hb : r.before = (g ++ w).reverse ++ b)
    (h : (Digits w ∧ n.toInt = decimal w) ∨ (∃ w' ds, w = c! '-' :: (w' ++ ds) ∧ White w' ∧ Digits ds ∧ n.toInt = -(decimal ds : Int))) :
    Spot env (intTok n) r where
  msg e' he := by simp [intTok] at he
  named := by
    rcases h with ⟨h, _⟩ | ⟨w', ds, rfl, _, h, _⟩
    · exact .token _ _ (.int _ h) (endsAt_read hb h.1)
    · exact .token _ _ (.int _ h) (endsAt_read (g := g ++ (c! '-' :: w')) (b := b) (by simp [hb]) h.1)
  err := by simp [intTok]
  ch c hc := by simp [intTok] at hc
  filter hc := by simp [intTok] at hc
  name hc := by simp [intTok] at hc
  shown _ _ _ := by
    have : b! "unexpected token " ++ (intTok n).text env = b! "unexpected token integer literal(" ++ intToBytes n.toInt ++ b! ")" := by
      simp [Lexeme.text, intTok, Tok.hasVal, Tok.text, LVal.text]
    rw [this]
    have hi := integerText_intToBytes n.toInt
    rcases h with ⟨h, e⟩ | ⟨w', ds, rfl, hw, h, e⟩
    · refine .int _ w _ h (endsAt_read hb h.1) ?_
      rw [← e]; exact hi
    · refine .negInt _ w' ds _ hw h (endsAt_read hb (by simp)) ?_
      rw [← e]; exact hi

theorem spot_real {f : F64} {b g w next : Bytes} {r : Rd} (hb : r.before = (g ++ w).reverse ++ b) (h : RealText w next) :
    Spot env (realTok f) r where
  msg e' he := by simp [realTok] at he
  named := by
    refine .token _ _ (.real _ _ h) (endsAt_read hb ?_)
    intro e
    generalize w = w' at h e
    cases h
    simp at e
  err := by simp [realTok]
  ch c hc := by simp [realTok] at hc
  filter hc := by simp [realTok] at hc
  name hc := by simp [realTok] at hc
  shown h := by simp [realTok] at h

theorem spot_name {c : UInt8} {b g w : Bytes} {r : Rd} (hb : r.before = (g ++ c :: w).reverse ++ b) (h : Letter c) (hw : All LetterDigitDash w) :
    Spot env (nameTok (c :: w)) r where
  msg e' he := by simp [nameTok] at he
  named := .token _ _ (.name _ _ h hw) (endsAt_read hb (by simp))
  err := by simp [nameTok]
  ch c hc := by simp [nameTok] at hc
  filter hc := by simp [nameTok] at hc
  name _ := ⟨_, rfl, endsAt_read hb (by simp)⟩
  shown _ _ _ := by
    have : b! "unexpected token " ++ (nameTok (c :: w)).text env = b! "unexpected token identifier(" ++ (c :: w) ++ b! ")" := by
      simp [Lexeme.text, nameTok, Tok.hasVal, Tok.text, LVal.text]
    rw [this]
    exact .name _ c w h hw (endsAt_read hb (by simp))

theorem sign_text {c : UInt8} : ∀ (_ : c ∈ b! "()[]*$:,.@~%+-/&|<>=!"), [c] ∈ signs ∧ (Tok.ch c).text = [c] := by
  have : ∀ c ∈ b! "()[]*$:,.@~%+-/&|<>=!", [c] ∈ signs ∧ (Tok.ch c).text = [c] := by decide
  exact this c

theorem spot_ch {c : UInt8} {b g : Bytes} {r : Rd} (hb : r.before = (g ++ [c]).reverse ++ b) (hc : c ∈ b! "()[]*$:,.@~%+-/&|<>=!") :
    Spot env (.plain (.ch c)) r :=
  spot_sign hb (sign_text hc).1 (sign_text hc).2 (by simp) rfl (by rintro c ⟨rfl⟩; rfl)

theorem toInt_neg_ofNat {n : Nat} (h : n < 2 ^ 63 - 1) : (-Int64.ofNat n).toInt = -(n : Int) := by
  rw [Int64.toInt_neg, Int64.toInt_ofNat_of_lt (by omega)]
  rw [Int.bmod_eq_of_le] <;> omega

theorem spot_lexPath {r0 r : Rd} {lx : Lexeme} (h : lexPath env r0 = some (lx, r)) : Spot env lx r := by
  obtain ⟨x, hx, ok⟩ := lexPath_ok env r0
  rw [h] at hx; cases hx
  have htext : r.text = r0.text := ok.text
  by_cases he : lx.err = none
  · by_cases ht : lx.tok = .eof
    · have hs := lexPath_shape h
      have : lx = .plain .eof := by
        simp only at hs
        cases hs <;> simp_all [Lexeme.fail, nameTok, strTok, intTok, realTok, Lexeme.plain]
      subst this
      apply spot_eof
      obtain ⟨b, text⟩ := r0
      have hw : White text := lexPath_eof.1 ⟨r, h⟩
      obtain ⟨g, next, hg, hn, e1, e2⟩ := Rd.ws_split ⟨b, text⟩
      simp only at e1 e2
      subst e1
      cases next with
      | nil => unfold lexPath at h; rw [e2] at h; simp at h; rw [← h]
      | cons c cs => exact absurd (hw c (by simp)) (hn c rfl)
    · obtain ⟨g, w, hg, h1, h2, h3⟩ := lexPath_inv (b := r0.before) (text := r0.rest) h he ht
      rcases h3 with h3 | ⟨h3, v, rfl, h4⟩
      · generalize r.rest = nx at h3
        cases h3 with
        | punct c _ hc =>
          refine spot_ch h2 ?_
          have : ∀ c ∈ b! "()[]*$:,", c ∈ b! "()[]*$:,.@~%+-/&|<>=!" := by decide
          exact this c hc
        | dot => exact spot_ch h2 (by decide)
        | nest => exact spot_sign h2 (by decide) rfl (by simp) rfl (by simp)
        | filter => exact spot_sign h2 (by decide) rfl (by simp) rfl (by simp)
        | str _ v _ hs => exact spot_str h2 (.inl hs)
        | int _ _ hd _ hv => exact spot_int h2 (.inl ⟨hd, Int64.toInt_ofNat_of_lt hv⟩)
        | neg w' ds _ hw hd _ hv => exact spot_int h2 (.inr ⟨w', ds, rfl, hw, hd, toInt_neg_ofNat hv⟩)
        | name c w _ hc hw _ => exact spot_name h2 hc hw
      · exact spot_str h2 (.inr ⟨h3, h4⟩)
  · obtain ⟨e, he⟩ := Option.ne_none_iff_exists'.1 he
    have hm := lexPath_message h he
    have hs := lexPath_shape h
    have : lx = .fail e := by
      simp only at hs
      cases hs <;> simp_all [Lexeme.fail, nameTok, strTok, intTok, realTok, Lexeme.plain]
    subst this
    exact spot_fail (by rw [htext]; exact hm)

theorem spot_lexExpr {r0 r : Rd} {lx : Lexeme} (h : lexExpr env r0 = some (lx, r)) : Spot env lx r := by
  obtain ⟨x, hx, ok⟩ := lexExpr_ok env r0
  rw [h] at hx; cases hx
  have htext : r.text = r0.text := ok.text
  by_cases he : lx.err = none
  · by_cases ht : lx.tok = .eof
    · have hs := lexExpr_shape h
      have : lx = .plain .eof := by
        simp only at hs
        cases hs <;> simp_all [Lexeme.fail, nameTok, strTok, intTok, realTok, Lexeme.plain]
      subst this
      apply spot_eof
      obtain ⟨b, text⟩ := r0
      have hw : White text := lexExpr_eof.1 ⟨r, h⟩
      obtain ⟨g, next, hg, hn, e1, e2⟩ := Rd.ws_split ⟨b, text⟩
      simp only at e1 e2
      subst e1
      cases next with
      | nil => unfold lexExpr at h; rw [e2] at h; simp at h; rw [← h]
      | cons c cs => exact absurd (hw c (by simp)) (hn c rfl)
    · obtain ⟨g, w, hg, h1, h2, h3⟩ := lexExpr_inv (b := r0.before) (text := r0.rest) h he ht
      rcases h3 with h3 | ⟨h3, v, rfl, h4⟩
      · generalize r.rest = nx at h3
        cases h3 with
        | punct c _ hc =>
          refine spot_ch h2 ?_
          have : ∀ c ∈ b! "()[]@$.,~*%+-/", c ∈ b! "()[]*$:,.@~%+-/&|<>=!" := by decide
          exact this c hc
        | alone c _ _ hc =>
          refine spot_ch h2 ?_
          rcases hc with ⟨rfl, _⟩ | ⟨rfl, _⟩ | ⟨rfl, _⟩ | ⟨rfl, _⟩ | ⟨rfl, _⟩ | ⟨rfl, _⟩ <;> decide
        | and => exact spot_sign h2 (by decide) rfl (by simp) rfl (by simp)
        | or => exact spot_sign h2 (by decide) rfl (by simp) rfl (by simp)
        | le => exact spot_sign h2 (by decide) rfl (by simp) rfl (by simp)
        | ge => exact spot_sign h2 (by decide) rfl (by simp) rfl (by simp)
        | eq => exact spot_sign h2 (by decide) rfl (by simp) rfl (by simp)
        | ne => exact spot_sign h2 (by decide) rfl (by simp) rfl (by simp)
        | match_ => exact spot_sign h2 (by decide) rfl (by simp) rfl (by simp)
        | str _ v _ hs => exact spot_str h2 (.inl hs)
        | int _ _ hd _ hv => exact spot_int h2 (.inl ⟨hd, Int64.toInt_ofNat_of_lt hv⟩)
        | real _ f _ hr _ => exact spot_real h2 hr
        | name c w _ hc hw _ => exact spot_name h2 hc (fun x hx => (hw x hx).imp id Or.inl)
      · exact spot_str h2 (.inr ⟨h3, h4⟩)
  · obtain ⟨e, he⟩ := Option.ne_none_iff_exists'.1 he
    have hm := lexExpr_message h he
    have hs := lexExpr_shape h
    have : lx = .fail e := by
      simp only at hs
      cases hs <;> simp_all [Lexeme.fail, nameTok, strTok, intTok, realTok, Lexeme.plain]
    subst this
    exact spot_fail (by rw [htext]; exact hm)

theorem Spot.op {lx : Lexeme} {r : Rd} (h : Spot env lx r) : Spot env (opLexeme lx) r := by
  by_cases ht : lx.tok = .error
  · have : opLexeme lx = lx := by
      obtain ⟨t, v, e⟩ := lx
      simp only at ht; subst ht
      simp [opLexeme]
    rw [this]; exact h
  · have he := h.noErr ht
    by_cases hi : lx.tok = .id
    · obtain ⟨s, hs, hend⟩ := h.name hi
      obtain ⟨t, v, e⟩ := lx
      simp only at hi he hs
      subst hi he hs
      have key : ∀ (t : Tok) (w : Bytes), w ∈ signs → t.text = w → t ≠ .error ∧ t ≠ .id ∧ t ≠ .eof ∧ t ≠ .filter → t.hasVal = false → (∀ c, t ≠ .ch c) →
          EndsAt r.text r.offset w → Spot env ⟨t, .str w, none⟩ r := by
        intro t w hw ht h1 h2 h3 hend
        exact {
          msg := by simp
          named := by
            show NamedAt _ _ t.text
            rw [ht]; exact .token _ w (.sign _ hw) hend
          err := by simp [h1]
          ch := fun c hc => absurd hc (h3 c)
          filter := fun hc => absurd hc h1.2.2.2
          name := fun hc => absurd hc h1.2.1
          shown := by
            intro _ _ _
            have : (Lexeme.mk t (.str w) none).text env = w := by simp [Lexeme.text, h2, ht]
            rw [this]; exact .sign _ w hw hend }
      by_cases h1 : s = b! "in"
      · subst h1
        exact key .in_ _ (by decide) rfl (by simp) rfl (by simp) hend
      · by_cases h2 : s = b! "nin"
        · subst h2
          exact key .nin _ (by decide) rfl (by simp) rfl (by simp) hend
        · have : opLexeme ⟨.id, .str s, none⟩ = ⟨.id, .str s, none⟩ := by simp [opLexeme, h1, h2]
          rw [this]; exact h
    · have : opLexeme lx = lx := by simp [opLexeme, he, hi]
      rw [this]; exact h

end JP
