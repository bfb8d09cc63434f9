import Verif.Spec.Blame
import Verif.Proof.Tokens
import Verif.Proof.JsText
/-! Errors of the scanners: what is in the text when they are returned. -/
set_option linter.unusedSimpArgs false
namespace JP
open Spec
variable {env : Env}

/-! ### String literals -/

theorem NoBare.of_not_mem {q : UInt8} {t : Bytes} (h : q ∉ t) : NoBare q t := by
  rintro a b rfl
  exact absurd (by simp) h

theorem NoBare.append {q : UInt8} {x y : Bytes} (hx : NoBare q x) (hy : NoBare q y) : NoBare q (x ++ y) := by
  intro a b e
  rcases List.append_eq_append_iff.1 e with ⟨a', rfl, h2⟩ | ⟨c', h1, h2⟩
  · obtain ⟨z, rfl⟩ := hy a' b h2
    exact ⟨x ++ z, by simp⟩
  · cases c' with
    | nil =>
      simp at h1 h2
      obtain ⟨z, hz⟩ := hy [] b (by simpa using h2.symm)
      simp at hz
    | cons d c' =>
      simp at h2
      obtain ⟨rfl, rfl⟩ := h2
      exact hx a c' h1

theorem quote_ne {q : UInt8} (hq : Quote q) : q ≠ c! '\\' := by rcases hq with rfl | rfl <;> decide

theorem hex_not_quote {q c : UInt8} (hq : Quote q) (h : isHexDigit c = true) : q ≠ c := by
  rintro rfl
  rcases hq with rfl | rfl <;> exact absurd h (by decide)

theorem NoBare.escape {q : UInt8} (hq : Quote q) {t : Bytes} {u : Nat} (h : Escape q (c! '\\' :: t) u) :
    NoBare q (c! '\\' :: t) := by
  have hne := quote_ne hq
  have two : ∀ x : UInt8, NoBare q [c! '\\', x] := by
    intro x a b e
    cases a with
    | nil => simp at e; exact absurd e.1.symm hne
    | cons d a =>
      simp at e
      obtain ⟨rfl, e⟩ := e
      cases a with
      | nil => exact ⟨[], rfl⟩
      | cons d a => simp at e
  generalize hT : c! '\\' :: t = T at h
  cases h with
  | unicode a b c d i j k l ha hb hc hd =>
    apply NoBare.of_not_mem
    have n1 := hex_not_quote hq (hex_of ha).1
    have n2 := hex_not_quote hq (hex_of hb).1
    have n3 := hex_not_quote hq (hex_of hc).1
    have n4 := hex_not_quote hq (hex_of hd).1
    have n5 : q ≠ c! 'u' := by rcases hq with rfl | rfl <;> decide
    simp [n1, n2, n3, n4, n5, hne]
  | _ => exact two _

/-- What is in the text when a scanner of literals in the quotes `q` gives up; `pre` is what it has taken just
before `r`. -/
def StrFail (q : UInt8) (pre : Bytes) (r : Rd) : LexErr → Prop
  | .unclosedString => NoBare q (pre ++ r.rest)
  | .badEscape => ∃ a c b, r.text = a ++ c! '\\' :: c :: b ∧ ¬ EscapeChar c
  | .shortEscape => ∃ a h c b, r.text = a ++ (b! "\\u" ++ (h ++ c :: b)) ∧ All HexDigit h ∧ h.length < 4 ∧ ¬ HexDigit c
  | .ctrlChar => ∃ t c b, r.rest = t ++ c :: b ∧ c < 0x20
  | _ => False

theorem isHexDigit_iff {c : UInt8} : isHexDigit c = true ↔ HexDigit c :=
  ⟨fun h => ⟨_, hex_inv h⟩, fun ⟨_, h⟩ => (hex_of h).1⟩

theorem hexDigits_err : ∀ (n acc : Nat) (r : Rd) (e : LexErr), (hexDigits n acc r).1 = .error e →
    (e = .unclosedString ∧ All HexDigit r.rest) ∨
    (e = .shortEscape ∧ ∃ h c b, r.rest = h ++ c :: b ∧ All HexDigit h ∧ h.length < n ∧ ¬ HexDigit c)
  | 0, acc, r, e, h => by simp [hexDigits] at h
  | n + 1, acc, ⟨b, []⟩, e, h => by
    simp [hexDigits] at h
    exact .inl ⟨h.symm, by intro c hc; simp at hc⟩
  | n + 1, acc, ⟨b, c :: rs⟩, e, h => by
    unfold hexDigits at h
    simp only [Rd.get_cons] at h
    split at h
    · next hc =>
      have hc := isHexDigit_iff.1 hc
      rcases hexDigits_err n _ ⟨c :: b, rs⟩ e h with ⟨rfl, h1⟩ | ⟨rfl, w, d, y, h1, h2, h3, h4⟩
      · refine .inl ⟨rfl, ?_⟩
        intro x hx
        rcases List.mem_cons.1 hx with rfl | hx
        · exact hc
        · exact h1 x hx
      · refine .inr ⟨rfl, c :: w, d, y, by simp only at h1; simp [h1], ?_, by simp; omega, h4⟩
        intro x hx
        rcases List.mem_cons.1 hx with rfl | hx
        · exact hc
        · exact h2 x hx
    · next hc =>
      simp at h
      exact .inr ⟨h.symm, [], c, rs, rfl, by intro x hx; simp at hx, by simp, fun h => hc (isHexDigit_iff.2 h)⟩

theorem escaped_err {q : UInt8} (hq : Quote q) {b rest : Bytes} {e : LexErr}
    (h : (escaped q ⟨c! '\\' :: b, rest⟩).1 = .error e) : StrFail q [c! '\\'] ⟨c! '\\' :: b, rest⟩ e := by
  have hne := quote_ne hq
  unfold escaped at h
  cases rest with
  | nil =>
    simp at h
    subst h
    exact NoBare.of_not_mem (by simp [hne])
  | cons c rs =>
    simp only [Rd.get_cons] at h
    split at h
    · cases h
    next g1 =>
    split at h
    · cases h
    next g2 =>
    split at h
    · cases h
    next g3 =>
    split at h
    · cases h
    next g4 =>
    split at h
    · cases h
    next g5 =>
    split at h
    · cases h
    next g6 =>
    split at h
    · next g7 =>
      have g7 : c = c! 'u' := by simpa using g7
      subst g7
      rcases hexDigits_err 4 0 _ e h with ⟨rfl, h1⟩ | ⟨rfl, w, d, y, h1, h2, h3, h4⟩
      · apply NoBare.of_not_mem
        have n5 : q ≠ c! 'u' := by rcases hq with rfl | rfl <;> decide
        simp only [List.cons_append, List.nil_append, List.mem_cons, not_or]
        exact ⟨hne, n5, fun hm => hex_not_quote hq (isHexDigit_iff.2 (h1 q hm)) rfl⟩
      · simp only at h1
        exact ⟨b.reverse, w, d, y, by simp [Rd.text, h1], h2, h3, h4⟩
    next g7 =>
    split at h
    · next g8 =>
      simp at h
      subst h
      refine ⟨b.reverse, c, rs, by simp [Rd.text], ?_⟩
      simp at g1 g2 g3 g4 g5 g6 g7
      simp [EscapeChar, g1, g2, g3, g4, g5, g6, g7]
    · cases h

mutual
theorem strLoop_err {q : UInt8} (hq : Quote q) : ∀ (f : Nat) (acc : Bytes) (r r' : Rd) (e : LexErr),
    strLoop q f acc r = some (.error e, r') → StrFail q [] r e
  | 0, acc, r, r', e, h => by simp [strLoop] at h
  | f + 1, acc, ⟨b, []⟩, r', e, h => by
    simp [strLoop] at h
    rw [← h.1]
    exact NoBare.of_not_mem (by simp)
  | f + 1, acc, ⟨b, c :: rs⟩, r', e, h => by
    unfold strLoop at h
    simp only [Rd.get_cons] at h
    split at h
    · simp at h
    next g1 =>
    have g1 : c ≠ q := by simpa using g1
    split at h
    · next g2 =>
      have g2 : c = c! '\\' := by simpa using g2
      subst g2
      have := escLoop_err hq f acc 0 b rs r' e h
      cases e <;> simp only [StrFail, Rd.get_some_text] at this ⊢ <;> first
        | exact this
        | (obtain ⟨t, c, y, h1, h2⟩ := this
           exact ⟨c! '\\' :: t, c, y, by simp [h1], h2⟩)
    · split at h
      · next g3 =>
        simp at h
        rw [← h.1]
        exact ⟨[], c, rs, rfl, by simpa using g3⟩
      · have hc1 : NoBare q [c] := NoBare.of_not_mem (by simpa using Ne.symm g1)
        have := strLoop_err hq f (acc ++ [c]) ⟨c :: b, rs⟩ r' e h
        cases e <;> simp only [StrFail, Rd.get_some_text] at this ⊢
        case unclosedString => simpa using NoBare.append hc1 this
        case ctrlChar =>
          obtain ⟨t, d, y, h1, h2⟩ := this
          exact ⟨c :: t, d, y, by simp [h1], h2⟩
        all_goals exact this
theorem escLoop_err {q : UInt8} (hq : Quote q) : ∀ (f : Nat) (acc : Bytes) (surr : Nat) (b rest : Bytes) (r' : Rd) (e : LexErr),
    escLoop q f acc surr ⟨c! '\\' :: b, rest⟩ = some (.error e, r') → StrFail q [c! '\\'] ⟨c! '\\' :: b, rest⟩ e
  | 0, acc, surr, b, rest, r', e, h => by simp [escLoop] at h
  | f + 1, acc, surr, b, rest, r', e, h => by
    cases hx : escaped q ⟨c! '\\' :: b, rest⟩ with
    | mk x r1 =>
    cases x with
    | error e' =>
      rw [escLoop, hx] at h
      simp at h
      rw [← h.1]
      exact escaped_err hq (by rw [hx])
    | ok rv =>
      rw [escLoop_step hx] at h
      obtain ⟨t, h1, h2, h3, h4⟩ := escaped_inv hx
      simp only at h2 h3
      have hnb := NoBare.escape hq h1
      have htext : Rd.text ⟨c! '\\' :: b, rest⟩ = r1.text := by simp [Rd.text, h2, h3]
      obtain ⟨b1, rs1⟩ := r1
      simp only at h2 h3
      have key : ∀ (r2 : Rd) (pre : Bytes), r2.text = Rd.text ⟨b1, rs1⟩ → (∃ t', rest = t' ++ r2.rest) →
          (NoBare q (pre ++ r2.rest) → NoBare q (c! '\\' :: rest)) → StrFail q pre r2 e →
          StrFail q [c! '\\'] ⟨c! '\\' :: b, rest⟩ e := by
        rintro r2 pre k1 ⟨t', k2⟩ k3 k4
        cases e <;> simp only [StrFail] at k4 ⊢
        case unclosedString => exact k3 k4
        case badEscape => rw [htext, ← k1]; exact k4
        case shortEscape => rw [htext, ← k1]; exact k4
        case ctrlChar =>
          obtain ⟨t, d, y, h1, h2⟩ := k4
          exact ⟨t' ++ t, d, y, by rw [k2, h1]; simp, h2⟩
      cases rs1 with
      | nil =>
        simp only [Rd.get_nil] at h
        refine key _ [] (Rd.unget_text _) ?_ ?_ (strLoop_err hq f _ _ r' e h)
        · rw [h2, h3]
          obtain ⟨t0, x, rfl⟩ : ∃ t0 x, t = t0 ++ [x] := ⟨_, _, (List.dropLast_append_getLast h4).symm⟩
          exact ⟨t0, by simp [Rd.unget]⟩
        · intro _; rw [h2]; simpa using hnb
      | cons c rs1 =>
        rw [Rd.get_cons] at h
        by_cases hc : c = c! '\\'
        · subst hc
          simp only at h
          refine key _ [c! '\\'] (by rw [Rd.get_some_text]) ⟨t ++ [c! '\\'], by simp [h2]⟩ ?_ (escLoop_err hq f _ _ b1 rs1 r' e h)
          intro k
          rw [h2]
          exact NoBare.append hnb k
        · generalize (if (pend surr rv acc).2 != 0 then (pend surr rv acc).1 ++ encodeRune 0xFFFD
              else (pend surr rv acc).1) = acc' at h
          have h' : strLoop q f acc' ⟨b1, c :: rs1⟩ = some (.error e, r') := by
            rw [← h]
            split
            · next heq => simp at heq; exact absurd heq.1 hc
            · next heq => simp at heq; rw [← heq.2]; rfl
          refine key _ [] rfl ⟨t, h2⟩ ?_ (strLoop_err hq f _ _ r' e h')
          intro k
          rw [h2]
          exact NoBare.append hnb k
end

theorem lexQuoted_err {q : UInt8} (hq : Quote q) {b rest : Bytes} {lx : Lexeme} {r : Rd} {e : LexErr}
    (h : lexQuoted q ⟨q :: b, rest⟩ = some (lx, r)) (he : lx.err = some e) :
    LexMessage env (Rd.text ⟨q :: b, rest⟩) (e.text env) := by
  unfold lexQuoted lexString at h
  split at h
  · cases h
  · next e' r1 h1 =>
    simp at h
    rw [← h.1] at he
    simp [Lexeme.fail] at he
    subst he
    have ht : Rd.text ⟨q :: b, rest⟩ = b.reverse ++ q :: rest := by simp [Rd.text]
    have := strLoop_err hq _ _ _ _ _ h1
    cases e' <;> simp only [StrFail] at this
    case unclosedString => exact .unclosed _ q _ hq ht this
    case badEscape => obtain ⟨a, c, d, h1, h2⟩ := this; exact .badEscape a c d h1 h2
    case shortEscape => obtain ⟨a, w, c, d, h1, h2, h3, h4⟩ := this; exact .shortEscape a w c d h1 h2 h3 h4
    case ctrlChar => obtain ⟨t, c, d, h1, h2⟩ := this; exact .control b.reverse q t c d hq (by rw [ht, h1]) h2
  · simp at h
    rw [← h.1] at he
    simp at he

/-! ### Numbers -/

theorem lexNumber_err {real : Bool} {d : UInt8} {b rest : Bytes} {lx : Lexeme} {r : Rd} {e : LexErr} (hd : Digit d)
    (h : lexNumber env real ⟨d :: b, rest⟩ = (lx, r)) (he : lx.err = some e) :
    (∃ ds next, d :: rest = ds ++ next ∧ Digits ds ∧ Spec.Stops Digit next ∧ 2 ^ 63 ≤ decimal ds ∧ e = .parseInt ds ∧
      r = ⟨ds.reverse ++ b, next⟩) ∨
    (∃ w next, d :: rest = w ++ next ∧ RealText w next ∧ env.parseFloat w = none ∧ e = .parseFloat w) ∨
    (∃ ds fs c sign next, d :: rest = ds ++ c! '.' :: (fs ++ c :: (sign ++ next)) ∧ Digits ds ∧ All Digit fs ∧
      (c = c! 'e' ∨ c = c! 'E') ∧ (sign = [] ∨ sign = [c! '+'] ∨ sign = [c! '-']) ∧ Spec.Stops Digit next ∧ e = .badReal) := by
  obtain ⟨ds, next, hds, hn, e1, e2⟩ := digits_scan (b := b) (rest := rest) hd
  unfold lexNumber at h
  dsimp only at h
  rw [e2] at h
  simp only at h
  by_cases hr : (!real || (Rd.look ⟨ds.reverse ++ b, next⟩ != some (c! '.'))) = true
  · rw [if_pos hr, parseInt_digits hds] at h
    by_cases hv : decimal ds < 2 ^ 63
    · rw [if_pos hv] at h
      cases h
      simp at he
    · rw [if_neg hv] at h
      cases h
      simp [Lexeme.fail] at he
      exact .inl ⟨ds, next, e1, hds, hn, by omega, he.symm, rfl⟩
  · rw [if_neg hr] at h
    have hreal : real = true := by cases real <;> simp_all
    obtain ⟨x, rfl⟩ : ∃ x, next = c! '.' :: x := by
      cases next with
      | nil => simp [Rd.look] at hr
      | cons c x => simp [Rd.look] at hr; exact ⟨x, by rw [hr.2]⟩
    have hfs := takeWhile_split (p := isDigit) (q := Digit) (fun _ => isDigit_iff) x
    have hx : x = x.takeWhile isDigit ++ x.dropWhile isDigit := List.takeWhile_append_dropWhile.symm
    have e3 : Rd.takeWhile isDigit (Rd.get ⟨ds.reverse ++ b, c! '.' :: x⟩).2 =
        (x.takeWhile isDigit, ⟨(x.takeWhile isDigit).reverse ++ c! '.' :: (ds.reverse ++ b), x.dropWhile isDigit⟩) := by
      rw [Rd.get_cons, Rd.takeWhile_spec]
    rw [e3] at h
    generalize x.takeWhile isDigit = fs at *
    generalize x.dropWhile isDigit = y at *
    subst hx
    simp only at h
    have fin : ∀ (ex next w : Bytes) (r' : Rd), w = ds ++ c! '.' :: (fs ++ ex) → Exponent ex → y = ex ++ next → Spec.Stops Digit next →
        (ex = [] → Spec.Stops (fun c => c = c! 'e' ∨ c = c! 'E') next) →
        (match env.parseFloat w with
          | none => (Lexeme.fail (.parseFloat w), r')
          | some f => (⟨.real, .float f, none⟩, r')) = (lx, r) →
        (∃ w next, d :: rest = w ++ next ∧ RealText w next ∧ env.parseFloat w = none ∧ e = .parseFloat w) := by
      intro ex next w r' hw h1 h2 h3 h4 h5
      subst hw
      split at h5
      · next hp =>
        simp only [Prod.mk.injEq] at h5
        rw [← h5.1] at he
        simp [Lexeme.fail] at he
        exact ⟨_, next, by rw [e1, h2]; simp, .mk _ _ _ _ hds hfs.1 h1 h3 h4, hp, he.symm⟩
      · simp only [Prod.mk.injEq] at h5
        rw [← h5.1] at he
        simp at he
    cases y with
    | nil =>
      simp only [Rd.get_nil] at h
      exact .inr (.inl (fin [] [] _ _ (by simp) .none (by simp) hfs.2 (fun _ => by intro c hc; simp at hc) h))
    | cons c y =>
      simp only [Rd.get_cons] at h
      by_cases hee : c = c! 'e' ∨ c = c! 'E'
      · rw [if_pos (by simpa using hee)] at h
        have fin' : ∀ (sign z : Bytes) (r3 : Rd), (sign = [] ∨ sign = [c! '+'] ∨ sign = [c! '-']) → y = sign ++ z → r3.rest = z →
            (if (r3.takeWhile isDigit).1.isEmpty = true then (Lexeme.fail .badReal, r3)
             else match env.parseFloat (ds ++ c! '.' :: fs ++ c :: sign ++ (r3.takeWhile isDigit).1) with
              | none => (Lexeme.fail (.parseFloat (ds ++ c! '.' :: fs ++ c :: sign ++ (r3.takeWhile isDigit).1)),
                  (r3.takeWhile isDigit).2)
              | some f => (⟨.real, .float f, none⟩, (r3.takeWhile isDigit).2)) = (lx, r) →
            (∃ w next, d :: rest = w ++ next ∧ RealText w next ∧ env.parseFloat w = none ∧ e = .parseFloat w) ∨
            (∃ ds fs c sign next, d :: rest = ds ++ c! '.' :: (fs ++ c :: (sign ++ next)) ∧ Digits ds ∧ All Digit fs ∧
              (c = c! 'e' ∨ c = c! 'E') ∧ (sign = [] ∨ sign = [c! '+'] ∨ sign = [c! '-']) ∧ Spec.Stops Digit next ∧ e = .badReal) := by
          intro sign z r3 hs hy hz h5
          have hz1 := takeWhile_split (p := isDigit) (q := Digit) (fun _ => isDigit_iff) z
          have hz2 : z = z.takeWhile isDigit ++ z.dropWhile isDigit := List.takeWhile_append_dropWhile.symm
          rw [Rd.takeWhile_spec, hz] at h5
          by_cases hem : z.takeWhile isDigit = []
          · rw [if_pos (by simpa using hem)] at h5
            simp only [Prod.mk.injEq] at h5
            rw [← h5.1] at he
            simp [Lexeme.fail] at he
            rw [hem, List.nil_append] at hz2
            refine .inr ⟨ds, fs, c, sign, z, by rw [e1, hy], hds, hfs.1, hee, hs, ?_, he.symm⟩
            rw [hz2]; exact hz1.2
          · rw [if_neg (by simpa using hem)] at h5
            refine .inl (fin (c :: (sign ++ z.takeWhile isDigit)) (z.dropWhile isDigit) _ _ ?_
              (.some c sign _ hee hs ⟨hem, hz1.1⟩) ?_ hz1.2 (fun h => by simp at h) h5)
            · simp
            · rw [hy]
              conv => lhs; rw [hz2]
              simp
        cases y with
        | nil =>
          simp only [Rd.get_nil] at h
          exact .inr (fin' [] [] _ (.inl rfl) rfl rfl h)
        | cons s y =>
          by_cases hs : s = c! '+' ∨ s = c! '-'
          · have hsb : (s == c! '+' || s == c! '-') = true := by simpa using hs
            simp only [Rd.get_cons, hsb, if_true] at h
            refine .inr (fin' [s] y _ ?_ rfl rfl h)
            rcases hs with rfl | rfl
            · exact .inr (.inl rfl)
            · exact .inr (.inr rfl)
          · have hsb : (s == c! '+' || s == c! '-') = false := by simpa using hs
            simp only [Rd.get_cons, hsb, Bool.false_eq_true, if_false] at h
            exact .inr (fin' [] (s :: y) _ (.inl rfl) rfl rfl h)
      · rw [if_neg (by simpa using hee)] at h
        refine .inr (.inl (fin [] (c :: y) _ _ (by simp) .none (by simp) hfs.2 (fun _ => ?_) h))
        intro c' hc'
        simp at hc'; subst hc'; exact hee

theorem exponent_some {ex : Bytes} (h : Exponent ex) : (exponent? ex).isSome = true := by
  cases h with
  | none => rfl
  | some e sign ds he hs hd =>
    have hall : ds.all isDigit = true := by
      rw [List.all_eq_true]; intro c hc; exact isDigit_iff.2 (hd.2 c hc)
    have hne : ds.isEmpty = false := by simpa using hd.1
    have hsg : (signed (sign ++ ds)).2 = ds := by
      rcases hs with rfl | rfl | rfl
      · cases ds with
        | nil => rfl
        | cons c ds => rw [List.nil_append, signed_digit (isDigit_iff.2 (hd.2 c (by simp)))]
      · rfl
      · rfl
    unfold exponent?
    simp only
    rw [if_pos (by simpa using he)]
    cases hx : signed (sign ++ ds) with
    | mk neg ds' =>
      rw [hx] at hsg
      simp only at hsg
      subst hsg
      simp [hne, hall]

theorem decimal_of_real {w next : Bytes} (h : RealText w next) : (decimal? (signed w).2).isSome = true := by
  cases h with
  | mk ds fs ex next hds hfs hex hn hne =>
    have hdot : Spec.Stops Digit (c! '.' :: (fs ++ ex)) := by intro c hc; simp at hc; subst hc; simp [Digit]
    have hexs : Spec.Stops Digit ex := by
      cases hex with
      | none => intro c hc; simp at hc
      | some e sign ds' he _ _ =>
        intro c hc; simp at hc; subst hc
        rcases he with rfl | rfl <;> simp [Digit]
    have hs : (signed (ds ++ c! '.' :: (fs ++ ex))).2 = ds ++ c! '.' :: (fs ++ ex) := by
      obtain ⟨h1, h2⟩ := hds
      cases ds with
      | nil => exact absurd rfl h1
      | cons c ds => rw [List.cons_append, signed_digit (isDigit_iff.2 (h2 c (by simp)))]
    rw [hs]
    obtain ⟨t1, t2⟩ := takeWhile_all (fun _ => isDigit_iff) hds.2 hdot
    obtain ⟨t3, t4⟩ := takeWhile_all (fun _ => isDigit_iff) hfs hexs
    unfold decimal?
    simp only [t1, t2, t3, t4]
    have hne : ds.isEmpty = false := by simpa using hds.1
    simp only [hne, Bool.false_and, Bool.false_eq_true, if_false]
    have := exponent_some hex
    cases hx : exponent? ex with
    | none => rw [hx] at this; simp at this
    | some e => rfl

theorem lexNumber_message {real : Bool} {d : UInt8} {b rest : Bytes} {lx : Lexeme} {r : Rd} {e : LexErr} (hd : Digit d)
    (h : lexNumber env real ⟨d :: b, rest⟩ = (lx, r)) (he : lx.err = some e) :
    LexMessage env (Rd.text ⟨d :: b, rest⟩) (e.text env) := by
  have ht : Rd.text ⟨d :: b, rest⟩ = b.reverse ++ (d :: rest) := by simp [Rd.text]
  rw [ht]
  rcases lexNumber_err hd h he with ⟨ds, next, h1, h2, h3, h4, rfl, -⟩ | ⟨w, next, h1, h2, h3, rfl⟩ |
    ⟨ds, fs, c, sign, next, h1, h2, h3, h4, h5, h6, rfl⟩
  · have : LexErr.text env (.parseInt ds) = b! "strconv.ParseInt: parsing " ++ goQuote env ds ++ b! ": value out of range" := by
      simp only [LexErr.text, numError, digitsVal_digits h2, Option.isSome_some, if_true]
      simp
    rw [this, h1]
    exact .bigInt _ ds next rfl h2 h3 h4
  · have : LexErr.text env (.parseFloat w) = b! "strconv.ParseFloat: parsing " ++ goQuote env w ++ b! ": value out of range" := by
      simp only [LexErr.text, numError, decimal_of_real h2, if_true]
      simp
    rw [this, h1]
    exact .bigReal _ w next rfl h2 h3
  · rw [h1]
    exact .badReal _ ds fs c sign next rfl h2 h3 h4 h5 h6

end JP
