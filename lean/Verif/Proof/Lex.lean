import Verif.Proof.Number
import Verif.Model.Parse
import Verif.Spec.Text
/-! What the lexical scanners guarantee: they terminate, never lose or invent text, make progress, and
give well-formed tokens. -/
namespace JP

/-- The whole text a reader was made for. -/
def Rd.text (r : Rd) : Bytes := r.before.reverse ++ r.rest

@[simp] theorem Rd.get_nil {b : Bytes} : Rd.get ⟨b, []⟩ = (none, ⟨b, []⟩) := rfl
@[simp] theorem Rd.get_cons {b r : Bytes} {c : UInt8} : Rd.get ⟨b, c :: r⟩ = (some c, ⟨c :: b, r⟩) := rfl

theorem Rd.unget_text (r : Rd) : r.unget.text = r.text := by
  cases r with
  | mk b rs => cases b <;> simp [Rd.unget, Rd.text]

theorem Rd.unget_rest_le (r : Rd) : r.unget.rest.length ≤ r.rest.length + 1 := by
  cases r with
  | mk b rs => cases b <;> simp [Rd.unget]

theorem Rd.get_text (r : Rd) : r.get.2.text = r.text := by
  cases r with
  | mk b rs => cases rs <;> simp [Rd.get, Rd.text]

theorem Rd.offset_lt (r : Rd) : r.offset ≤ r.text.length - 1 := by
  simp [Rd.offset, Rd.text]; omega

theorem takeWhileGo_spec (p : UInt8 → Bool) : ∀ (rest before : Bytes),
    takeWhileGo p before rest =
      (rest.takeWhile p, ⟨(rest.takeWhile p).reverse ++ before, rest.dropWhile p⟩)
  | [], before => by simp [takeWhileGo]
  | c :: cs, before => by
    unfold takeWhileGo
    by_cases h : p c = true
    · simp [h, takeWhileGo_spec p cs (c :: before)]
    · simp [h]

theorem Rd.takeWhile_spec (p : UInt8 → Bool) (r : Rd) :
    r.takeWhile p = (r.rest.takeWhile p, ⟨(r.rest.takeWhile p).reverse ++ r.before, r.rest.dropWhile p⟩) :=
  takeWhileGo_spec p r.rest r.before

theorem takeWhile_append_dropWhile' (p : UInt8 → Bool) (l : Bytes) : l.takeWhile p ++ l.dropWhile p = l :=
  List.takeWhile_append_dropWhile

theorem Rd.takeWhile_text (p : UInt8 → Bool) (r : Rd) : (r.takeWhile p).2.text = r.text := by
  rw [r.takeWhile_spec]; simp [Rd.text, List.takeWhile_append_dropWhile]

theorem Rd.takeWhile_le (p : UInt8 → Bool) (r : Rd) : (r.takeWhile p).2.rest.length ≤ r.rest.length := by
  rw [r.takeWhile_spec]
  have : (List.dropWhile p r.rest).length ≤ r.rest.length := (List.dropWhile_sublist p).length_le
  exact this

theorem Rd.ws_text (r : Rd) : r.ws.text = r.text := r.takeWhile_text _
theorem Rd.ws_le (r : Rd) : r.ws.rest.length ≤ r.rest.length := r.takeWhile_le _

/-- Offsets mentioned by a lexical error lie within the text. -/
def LexErr.In (text : Bytes) : LexErr → Prop
  | .charAfter _ _ off => off ≤ text.length - 1
  | .unexpectedChar _ off => off ≤ text.length - 1
  | _ => True

/-- A token as the scanners produce them. -/
structure Lexeme.Good (env : Env) (text : Bytes) (lx : Lexeme) : Prop where
  err : lx.err.isSome ↔ lx.tok = .error
  errIn : ∀ e, lx.err = some e → e.In text
  str : lx.tok = .id ∨ lx.tok = .string ∨ lx.tok = .in_ ∨ lx.tok = .nin → ∃ s, lx.val = .str s
  int : lx.tok = .int → ∃ n, lx.val = .int n
  real : lx.tok = .real → ∃ f, lx.val = .float f ∧ f.neg? = false

theorem Lexeme.Good.plain {env : Env} {text : Bytes} {t : Tok}
    (h : t ≠ .error ∧ t ≠ .id ∧ t ≠ .string ∧ t ≠ .in_ ∧ t ≠ .nin ∧ t ≠ .int ∧ t ≠ .real) :
    (Lexeme.plain t).Good env text := by
  obtain ⟨h1, h2, h3, h4, h5, h6, h7⟩ := h
  constructor <;> simp [Lexeme.plain, *]

theorem Lexeme.Good.fail {env : Env} {text : Bytes} {e : LexErr} (h : e.In text) :
    (Lexeme.fail e).Good env text := by
  constructor <;> simp [Lexeme.fail, *]

/-- What a scanner that starts at `r` guarantees of its result; `c` bytes have been consumed before. -/
structure ScanOk (env : Env) (text : Bytes) (n : Nat) (x : Lexeme × Rd) : Prop where
  good : x.1.Good env text
  text : x.2.text = text
  le : x.2.rest.length ≤ n
  lt : x.1.tok ≠ .eof → x.1.err = none → x.2.rest.length < n

theorem isNext_ok (env : Env) {c : UInt8} {t f : Tok} {r : Rd} {n : Nat} (hr : r.rest.length < n)
    (ht : t ≠ .error ∧ t ≠ .id ∧ t ≠ .string ∧ t ≠ .in_ ∧ t ≠ .nin ∧ t ≠ .int ∧ t ≠ .real)
    (hf : f ≠ .id ∧ f ≠ .string ∧ f ≠ .in_ ∧ f ≠ .nin ∧ f ≠ .int ∧ f ≠ .real) :
    ScanOk env r.text n (isNext c t f r) := by
  unfold isNext
  split
  · refine ⟨.plain ht, r.get_text, ?_, fun _ _ => ?_⟩
    all_goals
      cases r with
      | mk b rs => cases rs <;> simp [Rd.get] at hr ⊢ <;> omega
  · split
    · refine ⟨.fail r.offset_lt, rfl, Nat.le_of_lt hr, fun _ h => ?_⟩
      simp [Lexeme.fail] at h
    · next h =>
      have hfe : f ≠ .error := by simpa using h
      exact ⟨.plain ⟨hfe, hf.1, hf.2.1, hf.2.2.1, hf.2.2.2.1, hf.2.2.2.2.1, hf.2.2.2.2.2⟩, rfl, Nat.le_of_lt hr,
        fun _ _ => hr⟩

theorem tokenErr_ok (env : Env) {c : Option UInt8} {r : Rd} {n : Nat} (hr : r.rest.length ≤ n) :
    ScanOk env r.text n (tokenErr c r) :=
  ⟨.fail r.offset_lt, rfl, hr, fun _ h => by simp [tokenErr, Lexeme.fail] at h⟩

theorem lexID_ok (env : Env) {p : UInt8 → Bool} {b rest : Bytes} {c : UInt8} (hc : p c = true) :
    ScanOk env (Rd.text ⟨c :: b, rest⟩) (rest.length + 1) (lexID p ⟨c :: b, rest⟩) := by
  unfold lexID
  have h1 : (Rd.unget ⟨c :: b, rest⟩) = ⟨b, c :: rest⟩ := rfl
  rw [h1, Rd.takeWhile_spec]
  have h2 : (List.dropWhile p rest).length ≤ rest.length := (List.dropWhile_sublist p).length_le
  refine ⟨?_, ?_, ?_, ?_⟩
  · constructor <;> simp
  · simp only
    have := Rd.takeWhile_text p ⟨b, c :: rest⟩
    rw [Rd.takeWhile_spec] at this
    rw [this]; simp [Rd.text]
  · simp [hc]; omega
  · intro _ _; simp [hc]; omega

theorem lexNumber_ok (env : Env) {real : Bool} {b rest : Bytes} {c : UInt8} (hc : isDigit c = true) :
    ScanOk env (Rd.text ⟨c :: b, rest⟩) (rest.length + 1) (lexNumber env real ⟨c :: b, rest⟩) := by
  unfold lexNumber
  have h1 : (Rd.unget ⟨c :: b, rest⟩) = ⟨b, c :: rest⟩ := rfl
  have ht0 : Rd.text ⟨b, c :: rest⟩ = Rd.text ⟨c :: b, rest⟩ := by simp [Rd.text]
  rw [h1]
  simp only
  have htext := Rd.takeWhile_text isDigit ⟨b, c :: rest⟩
  have hds : ∃ s, (Rd.takeWhile isDigit ⟨b, c :: rest⟩).1 = c :: s := by
    rw [Rd.takeWhile_spec]; simp [hc]
  have hlen : (Rd.takeWhile isDigit ⟨b, c :: rest⟩).2.rest.length ≤ rest.length := by
    rw [Rd.takeWhile_spec]; simp [hc]
    exact (List.dropWhile_sublist _).length_le
  generalize Rd.takeWhile isDigit ⟨b, c :: rest⟩ = x at htext hds hlen
  obtain ⟨ds, r⟩ := x
  obtain ⟨s0, hds⟩ := hds
  simp only at htext hds hlen ⊢
  rw [ht0] at htext
  rw [← htext]
  split
  · split
    · exact ⟨.fail trivial, rfl, by simp only; omega, fun _ h => by simp [Lexeme.fail] at h⟩
    · exact ⟨by constructor <;> simp, rfl, by simp only; omega, fun _ _ => by simp only; omega⟩
  · -- a fraction
    have hfin : ∀ (t : Bytes) (r' : Rd), r'.text = r.text → r'.rest.length ≤ rest.length →
        ScanOk env r.text (rest.length + 1) (match env.parseFloat (c :: t) with
          | none => (Lexeme.fail (.parseFloat (c :: t)), r')
          | some f => (⟨.real, .float f, none⟩, r')) := by
      intro t r' h1 h2
      split
      · exact ⟨.fail trivial, h1, by simp only; omega, fun _ h => by simp [Lexeme.fail] at h⟩
      · next f hf =>
        refine ⟨?_, h1, by simp only; omega, fun _ _ => by simp only; omega⟩
        constructor <;> simp
        exact parseFloat_nonneg hc hf
    have hg1 : r.get.2.text = r.text := r.get_text
    have hg2 : r.get.2.rest.length ≤ rest.length := by
      cases r with
      | mk b' rs => cases rs <;> simp [Rd.get] at hlen ⊢ <;> omega
    generalize r.get.2 = r1 at hg1 hg2
    have ht1 := r1.takeWhile_text isDigit
    have ht2 := r1.takeWhile_le isDigit
    generalize r1.takeWhile isDigit = y at ht1 ht2
    obtain ⟨fs, r2⟩ := y
    simp only at ht1 ht2 ⊢
    subst hds
    cases r2 with
    | mk b2 rs2 =>
    cases rs2 with
    | nil => exact hfin _ _ (by rw [ht1, hg1]) (by omega)
    | cons e rs2 =>
      simp only [Rd.get_cons]
      split
      · -- exponent
        have key : ∀ (sign : Bytes) (r3 : Rd), r3.text = r.text → r3.rest.length ≤ rest.length →
            ScanOk env r.text (rest.length + 1)
              (if (r3.takeWhile isDigit).1.isEmpty = true then (Lexeme.fail .badReal, r3)
               else match env.parseFloat (c :: s0 ++ 46 :: fs ++ e :: sign ++ (r3.takeWhile isDigit).1) with
                | none => (Lexeme.fail (.parseFloat (c :: s0 ++ 46 :: fs ++ e :: sign ++ (r3.takeWhile isDigit).1)),
                    (r3.takeWhile isDigit).2)
                | some f => (⟨.real, .float f, none⟩, (r3.takeWhile isDigit).2)) := by
          intro sign r3 h1 h2
          split
          · exact ⟨.fail trivial, h1, by simp only; omega, fun _ h => by simp [Lexeme.fail] at h⟩
          · have := r3.takeWhile_le isDigit
            exact hfin (s0 ++ 46 :: fs ++ e :: sign ++ (r3.takeWhile isDigit).1) _
              (by rw [r3.takeWhile_text, h1]) (by omega)
        have hr' : Rd.text ⟨e :: b2, rs2⟩ = r.text := by rw [← hg1, ← ht1]; simp [Rd.text]
        simp only [List.length_cons] at ht2
        cases rs2 with
        | nil => exact key [] _ hr' (by simp)
        | cons s rs3 =>
          simp only [Rd.get_cons]
          simp only [List.length_cons] at ht2
          by_cases hs : (s == 43 || s == 45) = true
          · simp only [hs, if_true]
            exact key [s] ⟨s :: e :: b2, rs3⟩ (by rw [← hr']; simp [Rd.text]) (by simp only; omega)
          · simp only [hs, Bool.false_eq_true, if_false]
            exact key [] ⟨e :: b2, s :: rs3⟩ hr' (by simp only [List.length_cons]; omega)
      · exact hfin _ _ (by rw [ht1, hg1]) (by omega)

theorem Rd.get_some_text {b : Bytes} {c : UInt8} {rs : Bytes} :
    Rd.text ⟨c :: b, rs⟩ = Rd.text ⟨b, c :: rs⟩ := by simp [Rd.text]

theorem hexDigits_ok : ∀ (n acc : Nat) (r : Rd),
    (hexDigits n acc r).2.text = r.text ∧ (hexDigits n acc r).2.rest.length ≤ r.rest.length ∧
      (∀ t e, (hexDigits n acc r).1 = .error e → e.In t)
  | 0, acc, r => ⟨rfl, Nat.le_refl _, by simp [hexDigits]⟩
  | n + 1, acc, ⟨b, []⟩ => by simp [hexDigits, LexErr.In]
  | n + 1, acc, ⟨b, c :: rs⟩ => by
    unfold hexDigits
    simp only [Rd.get_cons]
    split
    · have := hexDigits_ok n (acc * 16 + hexVal c) ⟨c :: b, rs⟩
      rw [Rd.get_some_text] at this
      exact ⟨this.1, Nat.le_trans this.2.1 (by simp), this.2.2⟩
    · simp [Rd.unget, LexErr.In]

theorem escaped_ok (cq : UInt8) (r : Rd) :
    (escaped cq r).2.text = r.text ∧ (escaped cq r).2.rest.length ≤ r.rest.length ∧
    (∀ v, (escaped cq r).1 = .ok v → (escaped cq r).2.rest.length < r.rest.length) ∧
    (∀ t e, (escaped cq r).1 = .error e → e.In t) := by
  obtain ⟨b, rs⟩ := r
  unfold escaped
  cases rs with
  | nil => simp [LexErr.In]
  | cons c rs =>
    simp only [Rd.get_cons]
    have ht := @Rd.get_some_text b c rs
    repeat' split
    all_goals first
      | exact ⟨ht, by simp, by simp, by simp⟩
      | (have := hexDigits_ok 4 0 ⟨c :: b, rs⟩
         refine ⟨this.1.trans ht, Nat.le_trans this.2.1 (by simp), fun _ _ => Nat.lt_of_le_of_lt this.2.1 (by simp), this.2.2⟩)
      | simp [Rd.unget, LexErr.In]

/-- What the loops that scan a string guarantee. -/
def StrOk (r : Rd) (x : StrRes) : Prop :=
  ∃ e r', x = some (e, r') ∧ r'.text = r.text ∧ r'.rest.length ≤ r.rest.length ∧
    (∀ t er, e = .error er → er.In t)

mutual
theorem strLoop_ok (cq : UInt8) : ∀ (f : Nat) (acc : Bytes) (r : Rd), 2 * r.rest.length + 2 ≤ f →
    StrOk r (strLoop cq f acc r)
  | 0, acc, r, h => by omega
  | f + 1, acc, ⟨b, []⟩, h => by
    unfold strLoop
    exact ⟨_, _, rfl, rfl, Nat.le_refl _, by simp [LexErr.In]⟩
  | f + 1, acc, ⟨b, c :: rs⟩, h => by
    have ht := @Rd.get_some_text b c rs
    simp only [List.length_cons] at h
    unfold strLoop
    simp only [Rd.get_cons]
    split
    · exact ⟨_, _, rfl, ht, by simp, by simp [LexErr.In]⟩
    · split
      · obtain ⟨e, r', h1, h2, h3, h4⟩ := escLoop_ok cq f acc 0 ⟨c :: b, rs⟩ (by simp only; omega)
        exact ⟨e, r', h1, h2.trans ht, Nat.le_trans h3 (by simp), h4⟩
      · split
        · exact ⟨_, _, rfl, ht, by simp, by simp [LexErr.In]⟩
        · obtain ⟨e, r', h1, h2, h3, h4⟩ := strLoop_ok cq f (acc ++ [c]) ⟨c :: b, rs⟩ (by simp only; omega)
          exact ⟨e, r', h1, h2.trans ht, Nat.le_trans h3 (by simp), h4⟩
theorem escLoop_ok (cq : UInt8) : ∀ (f : Nat) (acc : Bytes) (surr : Nat) (r : Rd), 2 * r.rest.length + 3 ≤ f →
    StrOk r (escLoop cq f acc surr r)
  | 0, acc, surr, r, h => by omega
  | f + 1, acc, surr, r, h => by
    unfold escLoop
    obtain ⟨ht, hle, hlt, hin⟩ := escaped_ok cq r
    generalize escaped cq r = x at ht hle hlt hin
    obtain ⟨x, r1⟩ := x
    simp only at ht hle hlt hin
    cases x with
    | error e => exact ⟨_, _, rfl, ht, hle, fun t er h => hin t er (by cases h; rfl)⟩
    | ok rv =>
      have hlt := hlt rv rfl
      simp only
      generalize (if surr != 0 then
          if decodeSurrogates surr rv != 0xFFFD then (acc ++ encodeRune (decodeSurrogates surr rv), 0)
          else (acc ++ encodeRune (decodeSurrogates surr rv) ++ encodeRune rv, 0)
        else if isSurrogate rv then (acc, rv)
        else (acc ++ encodeRune rv, 0)) = y
      obtain ⟨acc', surr'⟩ := y
      simp only
      obtain ⟨b1, rs1⟩ := r1
      cases rs1 with
      | nil =>
        simp only [Rd.get_nil]
        have hu := Rd.unget_rest_le ⟨b1, []⟩
        simp only [List.length_nil] at hu hlt
        obtain ⟨e, r', h1, h2, h3, h4⟩ := strLoop_ok cq f (if surr' != 0 then acc' ++ encodeRune 0xFFFD else acc')
          (Rd.unget ⟨b1, []⟩) (by omega)
        exact ⟨e, r', h1, h2.trans ((Rd.unget_text _).trans ht), by omega, h4⟩
      | cons c rs1 =>
        simp only [Rd.get_cons]
        simp only [List.length_cons] at hlt
        have ht1 := @Rd.get_some_text b1 c rs1
        split
        · next heq =>
          simp only [Prod.mk.injEq] at heq
          obtain ⟨_, rfl⟩ := heq
          obtain ⟨e, r', h1, h2, h3, h4⟩ := escLoop_ok cq f acc' surr' ⟨c :: b1, rs1⟩ (by simp only; omega)
          exact ⟨e, r', h1, h2.trans (ht1.trans ht), by simp only at h3; omega, h4⟩
        · next heq =>
          simp only [Prod.mk.injEq] at heq
          obtain ⟨_, rfl⟩ := heq
          have hu : Rd.unget ⟨c :: b1, rs1⟩ = ⟨b1, c :: rs1⟩ := rfl
          rw [hu]
          obtain ⟨e, r', h1, h2, h3, h4⟩ := strLoop_ok cq f (if surr' != 0 then acc' ++ encodeRune 0xFFFD else acc')
            ⟨b1, c :: rs1⟩ (by simp only [List.length_cons]; omega)
          exact ⟨e, r', h1, h2.trans ht, by simp only [List.length_cons] at h3; omega, h4⟩
end

theorem lexQuoted_ok (env : Env) (cq : UInt8) (r : Rd) :
    ∃ x, lexQuoted cq r = some x ∧ ScanOk env r.text (r.rest.length + 1) x := by
  obtain ⟨e, r', h1, h2, h3, h4⟩ := strLoop_ok cq (2 * r.rest.length + 4) [] r (by omega)
  unfold lexQuoted lexString
  rw [h1]
  cases e with
  | error e =>
    exact ⟨_, rfl, .fail (h4 _ e rfl), h2, by simp only; omega, fun _ h => by simp [Lexeme.fail] at h⟩
  | ok s => exact ⟨_, rfl, by constructor <;> simp, h2, by simp only; omega, fun _ _ => by simp only; omega⟩

theorem lexRegexpGo_ok (ec : UInt8) : ∀ (rest before acc : Bytes),
    (lexRegexpGo ec before acc rest).2.text = Rd.text ⟨before, rest⟩ ∧
    (lexRegexpGo ec before acc rest).2.rest.length ≤ rest.length ∧
    (∃ s, (lexRegexpGo ec before acc rest).1.val = .str s) ∧
    (∀ t e, (lexRegexpGo ec before acc rest).1.err = some e → e.In t)
  | [], before, acc => by simp [lexRegexpGo, LexErr.In]
  | [c], before, acc => by
    unfold lexRegexpGo
    split <;> simp [LexErr.In, Rd.text]
  | c :: d :: ds, before, acc => by
    unfold lexRegexpGo
    split
    · simp [Rd.text]
    · split
      · have := lexRegexpGo_ok ec ds (d :: c :: before) (acc ++ [ec])
        exact ⟨this.1.trans (by simp [Rd.text]), Nat.le_trans this.2.1 (by simp only [List.length_cons]; omega), this.2.2⟩
      · have := lexRegexpGo_ok ec (d :: ds) (c :: before) (acc ++ [c])
        exact ⟨this.1.trans (by simp [Rd.text]), Nat.le_trans this.2.1 (by simp), this.2.2⟩

theorem ScanOk.of_some {env : Env} {text : Bytes} {n : Nat} {x : Lexeme × Rd} (h : ScanOk env text n x) :
    ∃ y, some x = some y ∧ ScanOk env text n y := ⟨x, rfl, h⟩

theorem ScanOk.mono {env : Env} {text : Bytes} {n m : Nat} {x : Lexeme × Rd} (h : ScanOk env text n x) (hm : n ≤ m) :
    ScanOk env text m x :=
  ⟨h.good, h.text, Nat.le_trans h.le hm, fun a b => Nat.lt_of_lt_of_le (h.lt a b) hm⟩

theorem isExprPunct_ok {env : Env} {text : Bytes} {c : UInt8} : (Lexeme.plain (.ch c)).Good env text :=
  .plain (by simp)

theorem lexExpr_ok (env : Env) (r : Rd) :
    ∃ x, lexExpr env r = some x ∧ ScanOk env r.text r.rest.length x := by
  unfold lexExpr
  have hw := r.ws_text
  have hl := r.ws_le
  generalize r.ws = r1 at hw hl
  obtain ⟨b, rs⟩ := r1
  rw [← hw]
  suffices h : ∃ x, (match Rd.get ⟨b, rs⟩ with
      | (none, r) => some (Lexeme.plain .eof, r)
      | (some c, r) => _) = some x ∧ ScanOk env (Rd.text ⟨b, rs⟩) rs.length x by
    obtain ⟨x, h1, h2⟩ := h
    exact ⟨x, h1, h2.mono hl⟩
  cases rs with
  | nil => exact ⟨_, rfl, .plain (by simp), rfl, Nat.le_refl _, by simp [Lexeme.plain]⟩
  | cons c rs =>
    simp only [Rd.get_cons]
    have ht := @Rd.get_some_text b c rs
    rw [← ht]
    have hn : ∀ (a : UInt8) (t f : Tok),
        (t ≠ .error ∧ t ≠ .id ∧ t ≠ .string ∧ t ≠ .in_ ∧ t ≠ .nin ∧ t ≠ .int ∧ t ≠ .real) →
        (f ≠ .id ∧ f ≠ .string ∧ f ≠ .in_ ∧ f ≠ .nin ∧ f ≠ .int ∧ f ≠ .real) →
        ∃ x, some (isNext a t f ⟨c :: b, rs⟩) = some x ∧ ScanOk env (Rd.text ⟨c :: b, rs⟩) (c :: rs).length x :=
      fun a t f h1 h2 => ⟨_, rfl, isNext_ok env (by simp) h1 h2⟩
    split
    · exact ⟨_, rfl, .plain (by simp), rfl, by simp, by simp⟩
    split
    · exact hn _ _ _ (by simp) (by simp)
    split
    · exact hn _ _ _ (by simp) (by simp)
    split
    · exact hn _ _ _ (by simp) (by simp)
    split
    · exact hn _ _ _ (by simp) (by simp)
    split
    · have h1 : ScanOk env (Rd.text ⟨c :: b, rs⟩) (c :: rs).length (isNext 61 .eq (.ch 61) ⟨c :: b, rs⟩) :=
        isNext_ok env (by simp) (by simp) (by simp)
      have h2 : (isNext 61 .eq (.ch 61) ⟨c :: b, rs⟩).2.rest.length < (c :: rs).length := by
        unfold isNext
        have : (Tok.ch 61 == Tok.error) = false := by decide
        cases rs <;> simp only [Rd.look, List.head?, this] <;> split <;> simp <;> omega
      generalize isNext 61 .eq (.ch 61) ⟨c :: b, rs⟩ = x at h1 h2
      obtain ⟨lx, r⟩ := x
      simp only
      split
      · exact ⟨_, rfl, h1⟩
      · refine ⟨_, rfl, ?_⟩
        have := h1.text
        simp only at this h2
        rw [← this]
        exact isNext_ok env h2 (by simp) (by simp)
    split
    · exact hn _ _ _ (by simp) (by simp)
    split
    · exact lexQuoted_ok env c ⟨c :: b, rs⟩
    split
    · next h => exact ⟨_, rfl, lexNumber_ok env h⟩
    split
    · next h => exact ⟨_, rfl, lexID_ok env (by simp [isAlphanumeric, h])⟩
    · exact ⟨_, rfl, tokenErr_ok env (by simp)⟩

theorem lexPath_ok (env : Env) (r : Rd) :
    ∃ x, lexPath env r = some x ∧ ScanOk env r.text r.rest.length x := by
  unfold lexPath
  have hw := r.ws_text
  have hl := r.ws_le
  generalize r.ws = r1 at hw hl
  obtain ⟨b, rs⟩ := r1
  rw [← hw]
  suffices h : ∃ x, (match Rd.get ⟨b, rs⟩ with
      | (none, r) => some (Lexeme.plain .eof, r)
      | (some c, r) => _) = some x ∧ ScanOk env (Rd.text ⟨b, rs⟩) rs.length x by
    obtain ⟨x, h1, h2⟩ := h
    exact ⟨x, h1, h2.mono hl⟩
  cases rs with
  | nil => exact ⟨_, rfl, .plain (by simp), rfl, Nat.le_refl _, by simp [Lexeme.plain]⟩
  | cons c rs =>
    simp only [Rd.get_cons]
    have ht := @Rd.get_some_text b c rs
    rw [← ht]
    have hn : ∀ (a : UInt8) (t f : Tok),
        (t ≠ .error ∧ t ≠ .id ∧ t ≠ .string ∧ t ≠ .in_ ∧ t ≠ .nin ∧ t ≠ .int ∧ t ≠ .real) →
        (f ≠ .id ∧ f ≠ .string ∧ f ≠ .in_ ∧ f ≠ .nin ∧ f ≠ .int ∧ f ≠ .real) →
        ∃ x, some (isNext a t f ⟨c :: b, rs⟩) = some x ∧ ScanOk env (Rd.text ⟨c :: b, rs⟩) (c :: rs).length x :=
      fun a t f h1 h2 => ⟨_, rfl, isNext_ok env (by simp) h1 h2⟩
    split
    · exact ⟨_, rfl, .plain (by simp), rfl, by simp, by simp⟩
    split
    · exact hn _ _ _ (by simp) (by simp)
    split
    · exact hn _ _ _ (by simp) (by simp)
    split
    · exact lexQuoted_ok env c ⟨c :: b, rs⟩
    split
    · have hw2 := Rd.ws_text ⟨c :: b, rs⟩
      have hl2 := Rd.ws_le ⟨c :: b, rs⟩
      generalize Rd.ws ⟨c :: b, rs⟩ = r2 at hw2 hl2
      rw [← hw2]
      obtain ⟨b2, rs2⟩ := r2
      simp only at hl2
      cases rs2 with
      | nil =>
        simp only [Rd.get_nil, Option.any_none, Bool.not_false, if_true]
        have h1 := Rd.unget_text ⟨b2, []⟩
        have h2 := Rd.unget_rest_le ⟨b2, []⟩
        refine ⟨_, rfl, ?_⟩
        rw [← h1]
        exact tokenErr_ok env (Nat.le_trans h2 (by simp))
      | cons d rs2 =>
        rw [Rd.get_cons]
        simp only [List.length_cons] at hl2
        by_cases hd : isDigit d = true
        case neg =>
          rw [if_pos (by simpa using hd)]
          refine ⟨_, rfl, ?_⟩
          exact tokenErr_ok env (by simp; omega)
        case pos =>
          rw [if_neg (by simpa using hd)]
          have hnum : ScanOk env _ _ _ := lexNumber_ok env (real := false) (b := b2) (rest := rs2) hd
          generalize lexNumber env false ⟨d :: b2, rs2⟩ = x at hnum
          obtain ⟨fol, r3⟩ := x
          have ht3 := hnum.text
          have hl3 := hnum.le
          simp only at ht3 hl3
          rw [Rd.get_some_text] at ht3
          simp only
          rw [← ht3]
          split
          · exact ⟨_, rfl, tokenErr_ok env (by simp only [List.length_cons]; omega)⟩
          · next hi =>
            have hi : fol.tok = .int := by simpa using hi
            obtain ⟨n, hn⟩ := hnum.good.int hi
            have herr : fol.err = none := by
              have := hnum.good.err
              simp [hi] at this
              exact this
            rw [hn]
            simp only
            split
            · exact ⟨_, rfl, .fail trivial, rfl, by simp only [List.length_cons]; omega,
                fun _ h => by simp [Lexeme.fail] at h⟩
            · refine ⟨_, rfl, ?_, rfl, by simp only [List.length_cons]; omega, fun _ _ => ?_⟩
              · constructor <;> simp [hi, herr]
              · have := hnum.lt (by simp [hi]) herr
                simp only [List.length_cons] at this ⊢
                omega
    split
    · next h => exact ⟨_, rfl, lexNumber_ok env h⟩
    split
    · next h =>
      refine ⟨_, rfl, lexID_ok env ?_⟩
      have := ‹isLetter c = true›
      simp [isAlphanumericDash, this]
    · exact ⟨_, rfl, tokenErr_ok env (by simp)⟩

end JP
