import Verif.Spec.Lexical
import Verif.Proof.Grammar
/-! The scanners follow the spelling of tokens. -/
namespace JP
open Spec

/-! ### Classes of characters -/

theorem isDigit_iff {c : UInt8} : isDigit c = true ↔ Digit c := by simp [isDigit, Digit]
theorem isLetter_iff {c : UInt8} : isLetter c = true ↔ Letter c := by
  simp [isLetter, Letter, or_assoc]
theorem isAlphanumeric_iff {c : UInt8} : isAlphanumeric c = true ↔ LetterDigit c := by
  simp [isAlphanumeric, LetterDigit, isLetter_iff, isDigit_iff]
theorem isAlphanumericDash_iff {c : UInt8} : isAlphanumericDash c = true ↔ LetterDigitDash c := by
  simp [isAlphanumericDash, LetterDigitDash, isLetter_iff, isDigit_iff, or_assoc]
theorem isSpace_iff {c : UInt8} : isSpace c = true ↔ Space c := by
  simp [isSpace, Space, or_assoc]

theorem takeWhile_all {p : UInt8 → Bool} {q : UInt8 → Prop} (hpq : ∀ c, p c = true ↔ q c) {w next : Bytes}
    (hw : All q w) (hn : Stops q next) : (w ++ next).takeWhile p = w ∧ (w ++ next).dropWhile p = next := by
  induction w with
  | nil =>
    cases next with
    | nil => exact ⟨rfl, rfl⟩
    | cons c cs =>
      have : ¬ p c = true := fun h => hn c rfl ((hpq c).mp h)
      simp [this]
  | cons c w ih =>
    have hc : p c = true := (hpq c).mpr (hw c (by simp))
    have := ih (fun c h => hw c (by simp [h]))
    simp [hc, this.1, this.2]

theorem takeWhile_split {p : UInt8 → Bool} {q : UInt8 → Prop} (hpq : ∀ c, p c = true ↔ q c) (text : Bytes) :
    All q (text.takeWhile p) ∧ Stops q (text.dropWhile p) := by
  constructor
  · intro c hc
    exact (hpq c).mp (List.all_eq_true.mp List.all_takeWhile c hc)
  · intro c hc hq
    induction text with
    | nil => simp at hc
    | cons d ds ih =>
      by_cases hd : p d = true
      · simp [hd] at hc; exact ih hc
      · simp [hd] at hc; subst hc; exact hd ((hpq d).mpr hq)

theorem Rd.takeWhile_all {p : UInt8 → Bool} {q : UInt8 → Prop} (hpq : ∀ c, p c = true ↔ q c) {b w next : Bytes}
    (hw : All q w) (hn : Stops q next) : Rd.takeWhile p ⟨b, w ++ next⟩ = (w, ⟨w.reverse ++ b, next⟩) := by
  have h := JP.takeWhile_all hpq hw hn
  rw [Rd.takeWhile_spec]
  simp only [h.1, h.2]

theorem Rd.ws_all {b g next : Bytes} (hw : White g) (hn : Stops Space next) :
    Rd.ws ⟨b, g ++ next⟩ = ⟨g.reverse ++ b, next⟩ := by
  unfold Rd.ws
  rw [Rd.takeWhile_all (fun _ => isSpace_iff) hw hn]

theorem Rd.ws_split (r : Rd) : ∃ g next, White g ∧ Stops Space next ∧ r.rest = g ++ next ∧ r.ws = ⟨g.reverse ++ r.before, next⟩ := by
  have h := takeWhile_split (p := isSpace) (q := Space) (fun _ => isSpace_iff) r.rest
  refine ⟨_, _, h.1, h.2, List.takeWhile_append_dropWhile.symm, ?_⟩
  unfold Rd.ws
  rw [Rd.takeWhile_spec]

/-! ### Digits -/

theorem digits_fold {ds : Bytes} (h : All Digit ds) : ∀ n : Nat,
    ds.foldl (fun acc c => match acc with
      | none => none
      | some n => if isDigit c then some (n * 10 + (c.toNat - 48)) else none) (some n)
    = some (ds.foldl (fun n d => 10 * n + (d.toNat - 48)) n) := by
  induction ds with
  | nil => intro n; rfl
  | cons c ds ih =>
    intro n
    have hc : isDigit c = true := isDigit_iff.mpr (h c (by simp))
    simp only [List.foldl_cons, hc, if_true]
    rw [ih (fun c h' => h c (by simp [h'])), Nat.mul_comm]

theorem digitsVal_digits {ds : Bytes} (h : Digits ds) : digitsVal ds = some (decimal ds) := by
  obtain ⟨hne, h⟩ := h
  cases ds with
  | nil => exact absurd rfl hne
  | cons c ds => exact digits_fold h 0

theorem parseInt_digits {ds : Bytes} (h : Digits ds) :
    parseInt ds = if decimal ds < 2 ^ 63 then some (Int64.ofNat (decimal ds)) else none := by
  have hd := digitsVal_digits h
  unfold parseInt
  split
  · exact absurd rfl h.1
  · next ds' =>
    have := h.2 45 (by simp)
    simp [Digit] at this
  · next ds' =>
    have := h.2 43 (by simp)
    simp [Digit] at this
  · simp only [hd, Int64.ofInt_eq_ofNat]

/-! ### Character codes -/

theorem utf8_eq (n : Nat) (hn : n < 0x110000) : encodeRune n = utf8 n := by
  unfold utf8 encodeRune
  by_cases hv : n.isValidChar
  · rw [if_pos hv]
    have hc : (Char.ofNat n).val.toNat = n := by
      simp [Char.ofNat, hv, Char.ofNatAux]
    have hns : ¬ ((0xD800 ≤ n ∧ n ≤ 0xDFFF) ∨ 0x10FFFF < n) := by
      rcases hv with h | h
      · omega
      · omega
    rw [if_neg hns]
    unfold String.utf8EncodeChar
    simp only [hc]
    have hlt : n < 0x110000 := by omega
    by_cases h1 : n < 0x80
    · rw [if_pos h1, if_pos (show n ≤ 127 by omega)]
    rw [if_neg h1, if_neg (show ¬ n ≤ 127 by omega)]
    by_cases h2 : n < 0x800
    · rw [if_pos h2, if_pos (show n ≤ 2047 by omega)]
      have e1 : 0xC0 + n / 64 = n / 64 % 32 + 192 := by omega
      have e2 : 0x80 + n % 64 = n % 64 + 128 := by omega
      rw [e1, e2]
    rw [if_neg h2, if_neg (show ¬ n ≤ 2047 by omega)]
    by_cases h3 : n < 0x10000
    · rw [if_pos h3, if_pos (show n ≤ 65535 by omega)]
      have e1 : 0xE0 + n / 4096 = n / 4096 % 16 + 224 := by omega
      have e2 : 0x80 + n / 64 % 64 = n / 64 % 64 + 128 := by omega
      have e3 : 0x80 + n % 64 = n % 64 + 128 := by omega
      rw [e1, e2, e3]
    rw [if_neg h3, if_neg (show ¬ n ≤ 65535 by omega)]
    have e1 : 0xF0 + n / 262144 = n / 262144 % 8 + 240 := by omega
    have e2 : 0x80 + n / 4096 % 64 = n / 4096 % 64 + 128 := by omega
    have e3 : 0x80 + n / 64 % 64 = n / 64 % 64 + 128 := by omega
    have e4 : 0x80 + n % 64 = n % 64 + 128 := by omega
    rw [e1, e2, e3, e4]
  · rw [if_neg hv]
    have hns : 0xD800 ≤ n ∧ n ≤ 0xDFFF := by
      simp [Nat.isValidChar] at hv
      omega
    rw [if_neg (by omega), if_neg (by omega), if_pos (.inl hns)]
    decide

/-! ### Escapes -/

theorem hex_of {c : UInt8} {n : Nat} (h : Hex c n) : isHexDigit c = true ∧ hexVal c = n ∧ n < 16 := by
  cases h with
  | digit n hn =>
    refine ⟨?_, ?_, by omega⟩
    all_goals
      match n, hn with
      | 0, _ | 1, _ | 2, _ | 3, _ | 4, _ | 5, _ | 6, _ | 7, _ | 8, _ | 9, _ => rfl
  | lower n hn =>
    refine ⟨?_, ?_, by omega⟩
    all_goals
      match n, hn with
      | 0, _ | 1, _ | 2, _ | 3, _ | 4, _ | 5, _ => rfl
  | upper n hn =>
    refine ⟨?_, ?_, by omega⟩
    all_goals
      match n, hn with
      | 0, _ | 1, _ | 2, _ | 3, _ | 4, _ | 5, _ => rfl

theorem hex_inv {c : UInt8} (h : isHexDigit c = true) : Hex c (hexVal c) := by
  have key : ∀ k : Nat, k ≤ c.toNat → c = UInt8.ofNat (k + (c.toNat - k)) := by
    intro k hk
    rw [Nat.add_sub_cancel' hk]; exact UInt8.ofNat_toNat.symm
  simp only [isHexDigit, Bool.or_eq_true, Bool.and_eq_true, decide_eq_true_eq, UInt8.le_iff_toNat_le] at h
  rcases h with (h | h) | h
  · have hd : isDigit c = true := h
    simp only [isDigit, Bool.and_eq_true, decide_eq_true_eq, UInt8.le_iff_toNat_le] at h
    simp only [hexVal, hd, if_true]
    have h1 : 48 ≤ c.toNat := h.1
    have h2 : c.toNat ≤ 57 := h.2
    have := Hex.digit (c.toNat - 48) (by omega)
    rwa [← key 48 h1] at this
  · have h1 : 97 ≤ c.toNat := h.1
    have h2 : c.toNat ≤ 102 := h.2
    have hd : isDigit c = false := by
      simp only [isDigit, Bool.and_eq_false_iff, decide_eq_false_iff_not, UInt8.le_iff_toNat_le]
      right; show ¬ c.toNat ≤ 57; omega
    have hl : (decide (c! 'a' ≤ c) && decide (c ≤ c! 'f')) = true := by
      simp only [Bool.and_eq_true, decide_eq_true_eq, UInt8.le_iff_toNat_le]; exact h
    have := Hex.lower (c.toNat - 97) (by omega)
    rw [← key 97 h1] at this
    have e : hexVal c = 10 + (c.toNat - 97) := by
      unfold hexVal
      rw [hd, if_neg (by simp), if_pos hl]; omega
    rw [e]; exact this
  · have h1 : 65 ≤ c.toNat := h.1
    have h2 : c.toNat ≤ 70 := h.2
    have hd : isDigit c = false := by
      simp only [isDigit, Bool.and_eq_false_iff, decide_eq_false_iff_not, UInt8.le_iff_toNat_le]
      right; show ¬ c.toNat ≤ 57; omega
    have hl : ¬ (decide (c! 'a' ≤ c) && decide (c ≤ c! 'f')) = true := by
      simp only [Bool.and_eq_true, decide_eq_true_eq, UInt8.le_iff_toNat_le]
      show ¬ (97 ≤ c.toNat ∧ c.toNat ≤ 102); omega
    have := Hex.upper (c.toNat - 65) (by omega)
    rw [← key 65 h1] at this
    have e : hexVal c = 10 + (c.toNat - 65) := by
      unfold hexVal
      rw [hd, if_neg (by simp), if_neg hl]; omega
    rw [e]; exact this

/-- The quotes. -/
def Quote (q : UInt8) : Prop := q = c! '"' ∨ q = c! '\''

theorem escaped_of {q : UInt8} (hq : Quote q) {t : Bytes} {u : Nat} (h : Escape q (c! '\\' :: t) u) (b next : Bytes) :
    escaped q ⟨b, t ++ next⟩ = (.ok u, ⟨t.reverse ++ b, next⟩) ∧ u < 0x10000 := by
  cases h with
  | quote => rcases hq with rfl | rfl <;> exact ⟨rfl, by decide⟩
  | unicode a b' c d i j k l ha hb hc hd =>
    have ha := hex_of ha; have hb := hex_of hb; have hc := hex_of hc; have hd := hex_of hd
    constructor
    · simp [escaped, hexDigits, ha, hb, hc, hd]
      omega
    · omega
  | _ => exact ⟨rfl, by decide⟩

theorem escaped_inv {q : UInt8} {r r' : Rd} {u : Nat} (h : escaped q r = (.ok u, r')) :
    ∃ t, Escape q (c! '\\' :: t) u ∧ r.rest = t ++ r'.rest ∧ r'.before = t.reverse ++ r.before ∧ t ≠ [] := by
  obtain ⟨b, rest⟩ := r
  cases rest with
  | nil => simp [escaped] at h
  | cons c cs =>
    simp only [escaped, Rd.get_cons] at h
    by_cases h1 : (c == c! '\\' || c == c! '/') = true
    · rw [if_pos h1] at h
      simp at h1 h
      obtain ⟨rfl, rfl⟩ := h
      rcases h1 with rfl | rfl
      · exact ⟨[c! '\\'], .backslash, rfl, rfl, by simp⟩
      · exact ⟨[c! '/'], .slash, rfl, rfl, by simp⟩
    rw [if_neg h1] at h
    by_cases h2 : (c == c! 't') = true
    · rw [if_pos h2] at h
      simp at h2 h
      obtain ⟨rfl, rfl⟩ := h
      subst h2
      exact ⟨[c! 't'], .tab, rfl, rfl, by simp⟩
    rw [if_neg h2] at h
    by_cases h3 : (c == c! 'f') = true
    · rw [if_pos h3] at h
      simp at h3 h
      obtain ⟨rfl, rfl⟩ := h
      subst h3
      exact ⟨[c! 'f'], .formFeed, rfl, rfl, by simp⟩
    rw [if_neg h3] at h
    by_cases h4 : (c == c! 'n') = true
    · rw [if_pos h4] at h
      simp at h4 h
      obtain ⟨rfl, rfl⟩ := h
      subst h4
      exact ⟨[c! 'n'], .newline, rfl, rfl, by simp⟩
    rw [if_neg h4] at h
    by_cases h5 : (c == c! 'r') = true
    · rw [if_pos h5] at h
      simp at h5 h
      obtain ⟨rfl, rfl⟩ := h
      subst h5
      exact ⟨[c! 'r'], .return, rfl, rfl, by simp⟩
    rw [if_neg h5] at h
    by_cases h6 : (c == c! 'b') = true
    · rw [if_pos h6] at h
      simp at h6 h
      obtain ⟨rfl, rfl⟩ := h
      subst h6
      exact ⟨[c! 'b'], .backspace, rfl, rfl, by simp⟩
    rw [if_neg h6] at h
    by_cases h7 : (c == c! 'u') = true
    · rw [if_pos h7] at h
      simp at h7
      subst h7
      match cs, h with
      | [], h => simp [hexDigits] at h
      | [a1], h =>
        simp only [hexDigits, Rd.get_cons, Rd.get_nil] at h
        repeat' split at h
        all_goals simp at h
      | [a1, a2], h =>
        simp only [hexDigits, Rd.get_cons, Rd.get_nil] at h
        repeat' split at h
        all_goals simp at h
      | [a1, a2, a3], h =>
        simp only [hexDigits, Rd.get_cons, Rd.get_nil] at h
        repeat' split at h
        all_goals simp at h
      | a1 :: a2 :: a3 :: a4 :: rest, h =>
        simp only [hexDigits, Rd.get_cons] at h
        by_cases x1 : isHexDigit a1 = true
        · by_cases x2 : isHexDigit a2 = true
          · by_cases x3 : isHexDigit a3 = true
            · by_cases x4 : isHexDigit a4 = true
              · simp [x1, x2, x3, x4] at h
                obtain ⟨h, rfl⟩ := h
                refine ⟨[c! 'u', a1, a2, a3, a4], ?_, rfl, rfl, by simp⟩
                have := Escape.unicode (q := q) a1 a2 a3 a4 _ _ _ _ (hex_inv x1) (hex_inv x2) (hex_inv x3) (hex_inv x4)
                have e : u = 4096 * hexVal a1 + 256 * hexVal a2 + 16 * hexVal a3 + hexVal a4 := by omega
                rw [e]; exact this
              · simp [x1, x2, x3, x4] at h
            · simp [x1, x2, x3] at h
          · simp [x1, x2] at h
        · simp [x1] at h
    rw [if_neg h7] at h
    by_cases h8 : (c != q) = true
    · rw [if_pos h8] at h; simp at h
    · rw [if_neg h8] at h
      simp at h h8
      obtain ⟨rfl, rfl⟩ := h
      subst h8
      exact ⟨[c], .quote, rfl, rfl, by simp⟩

theorem Spec.Escape.head {q : UInt8} {t : Bytes} {u : Nat} (h : Escape q t u) : ∃ s, t = c! '\\' :: s := by
  cases h <;> exact ⟨_, rfl⟩
theorem Spec.Escapes.head {q : UInt8} {t : Bytes} {us : List Nat} (h : Escapes q t us) : ∃ s, t = c! '\\' :: s := by
  cases h with
  | one _ _ h => exact h.head
  | cons t u ts us h _ => obtain ⟨s, rfl⟩ := h.head; exact ⟨_, rfl⟩

/-! ### String literals -/

/-- What adjacent escapes add when the surrogate `surr`, if it is not 0, is pending. -/
def runesFrom (surr : Nat) (us : List Nat) : Bytes := if surr = 0 then runes us else runes (surr :: us)

theorem isSurrogate_iff {u : Nat} : isSurrogate u = true ↔ Surrogate u := by
  simp [isSurrogate, Surrogate]; omega

theorem utf8_surrogate {u : Nat} (h : Surrogate u) : utf8 u = encodeRune 0xFFFD := by
  unfold Surrogate at h
  rw [utf8, if_neg (by simp [Nat.isValidChar]; omega)]
  rfl

theorem decode_pair {u w : Nat} (h : SurrogatePair u w) : decodeSurrogates u w = ofPair u w ∧ ofPair u w ≠ 0xFFFD
    ∧ ofPair u w < 0x110000 := by
  unfold SurrogatePair at h
  unfold decodeSurrogates ofPair
  refine ⟨?_, by omega, by omega⟩
  rw [if_pos (by simp; omega)]; omega

theorem decode_no_pair {u w : Nat} (h : ¬ SurrogatePair u w) : decodeSurrogates u w = 0xFFFD := by
  unfold SurrogatePair at h
  unfold decodeSurrogates
  rw [if_neg (by simp; omega)]

/-- The state after one more escape. -/
def pend (surr rv : Nat) (acc : Bytes) : Bytes × Nat :=
  if surr != 0 then
    let paired := decodeSurrogates surr rv
    let acc := acc ++ encodeRune paired
    if paired != 0xFFFD then (acc, 0) else (acc ++ encodeRune rv, 0)
  else if isSurrogate rv then (acc, rv)
  else (acc ++ encodeRune rv, 0)

theorem pend_one {surr rv : Nat} {acc : Bytes} (hs : surr = 0 ∨ Surrogate surr) (hr : rv < 0x10000) :
    (if (pend surr rv acc).2 != 0 then (pend surr rv acc).1 ++ encodeRune 0xFFFD else (pend surr rv acc).1)
      = acc ++ runesFrom surr [rv] := by
  unfold pend runesFrom
  rcases hs with rfl | hs
  · simp only [bne_self_eq_false, if_true, Bool.false_eq_true, if_false, runes]
    by_cases h : isSurrogate rv = true
    · have h' := isSurrogate_iff.mp h
      have : rv ≠ 0 := by unfold Surrogate at h'; omega
      simp [h, this, utf8_surrogate h']
    · simp [h, utf8_eq rv (by omega)]
  · have : surr ≠ 0 := by unfold Surrogate at hs; omega
    simp only [bne_iff_ne, ne_eq, this, not_false_eq_true, if_true, if_false, runes]
    by_cases hp : SurrogatePair surr rv
    · obtain ⟨e1, e2, e3⟩ := decode_pair hp
      simp [e1, e2, hp, utf8_eq _ e3]
    · simp [decode_no_pair hp, hp, hs, utf8_eq rv (by omega), utf8_surrogate hs]

theorem pend_more {surr rv : Nat} {acc : Bytes} (hs : surr = 0 ∨ Surrogate surr) (hr : rv < 0x10000) {us : List Nat} (hus : us ≠ []) :
    (pend surr rv acc).1 ++ runesFrom (pend surr rv acc).2 us = acc ++ runesFrom surr (rv :: us)
    ∧ ((pend surr rv acc).2 = 0 ∨ Surrogate (pend surr rv acc).2) := by
  cases us with
  | nil => exact absurd rfl hus
  | cons w us =>
    unfold pend runesFrom
    rcases hs with rfl | hs
    · simp only [bne_self_eq_false, if_true, Bool.false_eq_true, if_false, runes]
      by_cases h : isSurrogate rv = true
      · have h' := isSurrogate_iff.mp h
        have : rv ≠ 0 := by unfold Surrogate at h'; omega
        simp [h, this, h', runes]
      · have h' : ¬ Surrogate rv := fun x => h (isSurrogate_iff.mpr x)
        have hp : ¬ SurrogatePair rv w := fun x => h' ⟨x.1, Nat.lt_trans x.2.1 (by decide)⟩
        simp [h, h', hp, utf8_eq rv (by omega)]
    · have : surr ≠ 0 := by unfold Surrogate at hs; omega
      simp only [bne_iff_ne, ne_eq, this, not_false_eq_true, if_true, if_false, runes]
      by_cases hp : SurrogatePair surr rv
      · obtain ⟨e1, e2, e3⟩ := decode_pair hp
        simp [e1, e2, hp, utf8_eq _ e3]
      · simp [decode_no_pair hp, hp, hs, utf8_eq rv (by omega), utf8_surrogate hs]

theorem escLoop_step {q : UInt8} {f surr rv : Nat} {acc : Bytes} {r r' : Rd} (h : escaped q r = (.ok rv, r')) :
    escLoop q (f + 1) acc surr r = match r'.get with
      | (some 92, r) => escLoop q f (pend surr rv acc).1 (pend surr rv acc).2 r
      | (_, r) => strLoop q f (if (pend surr rv acc).2 != 0 then (pend surr rv acc).1 ++ encodeRune 0xFFFD
          else (pend surr rv acc).1) r.unget := by
  rw [escLoop, h]
  rfl

theorem Spec.Escapes.ne {q : UInt8} {t : Bytes} {us : List Nat} (h : Escapes q t us) : us ≠ [] := by
  cases h <;> simp

theorem Spec.Escape.len {q : UInt8} {t : Bytes} {u : Nat} (h : Escape q t u) : 2 ≤ t.length := by
  cases h <;> simp

theorem escLoop_of {q : UInt8} (hq : Quote q) {T : Bytes} {us : List Nat} (h : Escapes q T us) :
    ∀ {es : Bytes}, T = c! '\\' :: es → ∀ {f surr : Nat} {acc b : Bytes} {d : UInt8} {next : Bytes}, d ≠ c! '\\' →
    (surr = 0 ∨ Surrogate surr) → es.length ≤ f →
    ∃ f', f ≤ f' + es.length ∧
      escLoop q f acc surr ⟨b, es ++ d :: next⟩ = strLoop q f' (acc ++ runesFrom surr us) ⟨es.reverse ++ b, d :: next⟩ := by
  induction h with
  | one t u h =>
    rintro es rfl f surr acc b d next hd hs hf
    obtain ⟨h1, hu⟩ := escaped_of hq h b (d :: next)
    have hl := h.len
    simp only [List.length_cons] at hl
    cases f with
    | zero => omega
    | succ f =>
      refine ⟨f, by omega, ?_⟩
      rw [escLoop_step h1]
      have : (match (Rd.get ⟨es.reverse ++ b, d :: next⟩) with
        | (some 92, r) => escLoop q f (pend surr u acc).1 (pend surr u acc).2 r
        | (_, r) => strLoop q f (if (pend surr u acc).2 != 0 then (pend surr u acc).1 ++ encodeRune 0xFFFD
          else (pend surr u acc).1) r.unget) = strLoop q f (if (pend surr u acc).2 != 0 then (pend surr u acc).1 ++ encodeRune 0xFFFD
          else (pend surr u acc).1) ⟨es.reverse ++ b, d :: next⟩ := by
        rw [Rd.get_cons]
        split
        · next h => simp at h; exact absurd h.1 hd
        · next h => simp at h; rw [← h.2]; rfl
      rw [this, pend_one hs hu]
  | cons t u ts us h hes ih =>
    intro es he f surr acc b d next hd hs hf
    obtain ⟨t', rfl⟩ := h.head
    obtain ⟨ts', rfl⟩ := hes.head
    simp only [List.cons_append, List.cons.injEq, true_and] at he
    subst he
    obtain ⟨h1, hu⟩ := escaped_of hq h b (c! '\\' :: (ts' ++ d :: next))
    simp only [List.length_append, List.length_cons] at hf
    obtain ⟨h2, h3⟩ := pend_more (acc := acc) hs hu hes.ne
    cases f with
    | zero => omega
    | succ f =>
      have hl := h.len
      simp only [List.length_cons] at hl
      obtain ⟨f', hf', e⟩ := ih rfl (f := f) (surr := (pend surr u acc).2) (acc := (pend surr u acc).1)
        (b := c! '\\' :: (t'.reverse ++ b)) (next := next) hd h3 (by omega)
      refine ⟨f', by simp; omega, ?_⟩
      rw [show t' ++ c! '\\' :: ts' ++ d :: next = t' ++ c! '\\' :: (ts' ++ d :: next) by simp, escLoop_step h1]
      have : ∀ (F : Rd → StrRes) (G : Rd → StrRes), (match (Rd.get ⟨t'.reverse ++ b, c! '\\' :: (ts' ++ d :: next)⟩) with
        | (some 92, r) => F r
        | (_, r) => G r) = F ⟨c! '\\' :: (t'.reverse ++ b), ts' ++ d :: next⟩ := fun _ _ => rfl
      rw [this, e, h2]
      simp

theorem strLoop_of {q : UInt8} (hq : Quote q) {t v : Bytes} (h : StrBody q t v) :
    ∀ (f : Nat) (acc b next : Bytes), t.length < f →
      strLoop q f acc ⟨b, t ++ q :: next⟩ = some (.ok (acc ++ v), ⟨q :: (t.reverse ++ b), next⟩) := by
  induction h with
  | nil =>
    intro f acc b next hf
    cases f with
    | zero => omega
    | succ f => simp [strLoop]
  | plain c t v h1 h2 h3 h ih =>
    intro f acc b next hf
    cases f with
    | zero => omega
    | succ f =>
      simp only [List.length_cons] at hf
      have := ih f (acc ++ [c]) (c :: b) next (by omega)
      have h3' : ¬ c < 0x20 := by rw [UInt8.not_lt]; exact h3
      simp [strLoop, h1, h2, h3', this]
  | escapes es us t v he hs h ih =>
    intro f acc b next hf
    cases f with
    | zero => omega
    | succ f =>
      obtain ⟨es', rfl⟩ := he.head
      have hqb : q ≠ c! '\\' := by rcases hq with rfl | rfl <;> decide
      obtain ⟨d, x, hx, hd⟩ : ∃ d x, t ++ q :: next = d :: x ∧ d ≠ c! '\\' := by
        cases t with
        | nil => exact ⟨q, next, rfl, hqb⟩
        | cons d t => exact ⟨d, _, rfl, hs d rfl⟩
      simp only [List.length_append, List.length_cons] at hf
      obtain ⟨f', hf', e⟩ := escLoop_of hq he rfl (f := f) (surr := 0) (acc := acc) (b := c! '\\' :: b) (next := x) hd (.inl rfl) (by omega)
      rw [← hx] at e
      have := ih f' (acc ++ runesFrom 0 us) (es'.reverse ++ c! '\\' :: b) next (by omega)
      rw [this] at e
      have hqb' : ¬ (c! '\\' = q) := fun h => hqb h.symm
      simp only [List.append_assoc] at e
      simp only [strLoop, List.cons_append, Rd.get_cons, List.append_assoc]
      rw [if_neg (by simpa using hqb'), if_pos (by simp), e]
      simp [runesFrom]

/-- At the last byte of a text. -/
theorem strLoop_single {q c : UInt8} {f : Nat} {acc b s : Bytes} {r : Rd}
    (h : strLoop q f acc ⟨b, [c]⟩ = some (.ok s, r)) : c = q ∧ s = acc ∧ r = ⟨c :: b, []⟩ := by
  cases f with
  | zero => cases h
  | succ f =>
    simp only [strLoop, Rd.get_cons] at h
    split at h
    · next hc => simp at h hc; exact ⟨hc, h.1.symm, h.2.symm⟩
    · split at h
      · cases f with
        | zero => cases h
        | succ f => simp [escLoop, escaped] at h
      · split at h
        · simp at h
        · cases f with
          | zero => cases h
          | succ f => simp [strLoop] at h

/-- How a literal ends: with its quote, or at the end of the text. -/
def LitEnds (q : UInt8) (b rest t : Bytes) (r : Rd) : Prop :=
  (rest = t ++ q :: r.rest ∧ r.before = q :: (t.reverse ++ b)) ∨ (rest = t ∧ r = ⟨t.reverse ++ b, []⟩ ∧ ∃ t', t = t' ++ [c! '\\', q])

theorem LitEnds.prefix {q : UInt8} {w b rest t : Bytes} {r : Rd} (h : LitEnds q (w.reverse ++ b) rest t r) :
    LitEnds q b (w ++ rest) (w ++ t) r := by
  rcases h with ⟨h1, h2⟩ | ⟨h1, h2, t', h3⟩
  · exact .inl ⟨by simp [h1], by simp [h2]⟩
  · exact .inr ⟨by simp [h1], by simp [h2], w ++ t', by simp [h3]⟩

theorem Spec.Escape.last {q : UInt8} (hq : Quote q) {t : Bytes} {u : Nat} (h : Escape q t u) (hl : t.getLast? = some q) :
    t = [c! '\\', q] := by
  cases h with
  | quote => rfl
  | unicode a b c d i j k l ha hb hc hd =>
    simp at hl
    subst hl
    have := (hex_of hd).1
    rcases hq with rfl | rfl <;> simp [isHexDigit, isDigit] at this
  | _ => rcases hq with rfl | rfl <;> simp at hl

theorem pend_surr {surr rv : Nat} {acc : Bytes} : (pend surr rv acc).2 = 0 ∨ Surrogate (pend surr rv acc).2 := by
  unfold pend
  split
  · simp only
    split <;> exact .inl rfl
  · split
    · next h => exact .inr (isSurrogate_iff.mp h)
    · exact .inl rfl

theorem strLoop_inv {q : UInt8} (hq : Quote q) (f : Nat) : (∀ {acc b rest s : Bytes} {r : Rd},
      strLoop q f acc ⟨b, rest⟩ = some (.ok s, r) → ∃ t v, StrBody q t v ∧ s = acc ++ v ∧ LitEnds q b rest t r) ∧
    (∀ {acc b rest s : Bytes} {r : Rd} {surr : Nat}, (surr = 0 ∨ Surrogate surr) →
      escLoop q f acc surr ⟨c! '\\' :: b, rest⟩ = some (.ok s, r) → ∃ es us t v, Escapes q (c! '\\' :: es) us ∧
        Stops (· = c! '\\') t ∧ StrBody q t v ∧ s = acc ++ runesFrom surr us ++ v ∧
        LitEnds q b (c! '\\' :: rest) (c! '\\' :: (es ++ t)) r) := by
  have hqb : q ≠ c! '\\' := by rcases hq with rfl | rfl <;> decide
  induction f with
  | zero => exact ⟨fun h => by simp [strLoop] at h, fun _ h => by simp [escLoop] at h⟩
  | succ f ih =>
    constructor
    · intro acc b rest s r h
      cases rest with
      | nil => simp [strLoop] at h
      | cons c cs =>
        simp only [strLoop, Rd.get_cons] at h
        by_cases h1 : c = q
        · subst h1
          simp at h
          obtain ⟨rfl, rfl⟩ := h
          exact ⟨[], [], .nil, by simp, .inl ⟨rfl, rfl⟩⟩
        rw [if_neg (by simpa using h1)] at h
        by_cases h2 : c = c! '\\'
        · subst h2
          rw [if_pos (by simp)] at h
          obtain ⟨es, us, t, v, h3, h4, h5, h6, h7⟩ := ih.2 (.inl rfl) h
          refine ⟨_, _, .escapes _ _ _ _ h3 h4 h5, ?_, h7⟩
          simpa [runesFrom] using h6
        rw [if_neg (by simpa using h2)] at h
        by_cases h3 : c < 0x20
        · rw [if_pos h3] at h; simp at h
        rw [if_neg h3] at h
        obtain ⟨t, v, h4, h5, h6⟩ := ih.1 h
        refine ⟨c :: t, c :: v, .plain _ _ _ h1 h2 (by rwa [UInt8.not_lt] at h3) h4, by simp [h5], ?_⟩
        exact LitEnds.prefix (w := [c]) h6
    · intro acc b rest s r surr hs h
      cases he : escaped q ⟨c! '\\' :: b, rest⟩ with
      | mk res r1 =>
        cases res with
        | error e => simp [escLoop, he] at h
        | ok rv =>
          rw [escLoop_step he] at h
          obtain ⟨t1, e1, e2, e3, e4⟩ := escaped_inv he
          simp only at e2 e3
          obtain ⟨b1, rest1⟩ := r1
          simp only at e2 e3
          subst e2 e3
          have hu := (escaped_of hq e1 [] []).2
          cases rest1 with
          | nil =>
            obtain ⟨t2, c, rfl⟩ : ∃ t2 c, t1 = t2 ++ [c] := by
              rcases List.eq_nil_or_concat t1 with h | ⟨t2, c, h⟩
              · exact absurd h e4
              · exact ⟨t2, c, by simpa using h⟩
            have hr : Rd.unget ⟨(t2 ++ [c]).reverse ++ c! '\\' :: b, []⟩ = ⟨t2.reverse ++ c! '\\' :: b, [c]⟩ := by
              simp [Rd.unget]
            simp only [Rd.get_nil, hr] at h
            obtain ⟨rfl, rfl, rfl⟩ := strLoop_single h
            have hl := Spec.Escape.last hq e1 (by rw [← List.cons_append, List.getLast?_concat])
            refine ⟨_, _, [], [], .one _ _ e1, ?_, .nil, ?_, .inr ⟨?_, ?_, ?_⟩⟩
            · intro c h; simp at h
            · rw [pend_one hs hu]; simp
            · simp
            · simp
            · refine ⟨[], ?_⟩
              simpa using hl
          | cons d x =>
            by_cases hd : d = c! '\\'
            · subst hd
              have h' : escLoop q f (pend surr rv acc).1 (pend surr rv acc).2
                  ⟨c! '\\' :: (t1.reverse ++ c! '\\' :: b), x⟩ = some (.ok s, r) := h
              obtain ⟨es, us, t, v, k1, k2, k3, k4, k5⟩ := ih.2 pend_surr h'
              refine ⟨t1 ++ c! '\\' :: es, rv :: us, t, v, ?_, k2, k3, ?_, ?_⟩
              · exact .cons _ _ _ _ e1 k1
              · rw [k4, (pend_more hs hu k1.ne).1]
              · have := LitEnds.prefix (w := c! '\\' :: t1) (b := b) (by simpa using k5)
                simpa using this
            · have h' : strLoop q f (if (pend surr rv acc).2 != 0 then (pend surr rv acc).1 ++ encodeRune 0xFFFD
                  else (pend surr rv acc).1) ⟨t1.reverse ++ c! '\\' :: b, d :: x⟩ = some (.ok s, r) := by
                rw [Rd.get_cons] at h
                split at h
                · next h1 => simp at h1; exact absurd h1.1 hd
                · next h1 => simp at h1; rw [← h1.2] at h; exact h
              obtain ⟨t, v, k1, k2, k3⟩ := ih.1 h'
              refine ⟨t1, [rv], t, v, .one _ _ e1, ?_, k1, ?_, ?_⟩
              · intro c hc
                rcases k3 with ⟨k3, _⟩ | ⟨k3, _⟩
                · cases t with
                  | nil => simp at hc
                  | cons a t => simp at hc k3; rw [← hc, ← k3.1]; exact hd
                · rw [← k3] at hc; simp at hc; rw [← hc]; exact hd
              · rw [k2, pend_one hs hu]
              · have := LitEnds.prefix (w := c! '\\' :: t1) (b := b) (by simpa using k3)
                simpa using this

theorem lexQuoted_of {q : UInt8} (hq : Quote q) {t v : Bytes} (h : StrBody q t v) (b next : Bytes) :
    lexQuoted q ⟨q :: b, t ++ q :: next⟩ = some (strTok v, ⟨(q :: (t ++ [q])).reverse ++ b, next⟩) := by
  have := strLoop_of hq h (2 * (t ++ q :: next).length + 4) [] (q :: b) next (by simp; omega)
  unfold lexQuoted lexString
  simp only [this]
  simp

theorem lexQuoted_inv {q : UInt8} (hq : Quote q) {b rest : Bytes} {lx : Lexeme} {r : Rd}
    (h : lexQuoted q ⟨b, rest⟩ = some (lx, r)) (he : lx.err = none) :
    ∃ t v, StrBody q t v ∧ lx = strTok v ∧ LitEnds q b rest t r := by
  unfold lexQuoted lexString at h
  split at h
  · cases h
  · cases h; simp [Lexeme.fail] at he
  · next s r1 hs =>
    cases h
    obtain ⟨t, v, h1, h2, h3⟩ := (strLoop_inv hq _).1 hs
    simp at h2
    exact ⟨t, v, h1, by rw [h2], h3⟩

theorem Spec.StrBody.lit {q : UInt8} (hq : Quote q) {t v : Bytes} (h : StrBody q t v) : StrLit (q :: (t ++ [q])) v := by
  rcases hq with rfl | rfl
  · exact .double _ _ h
  · exact .single _ _ h

/-! ### Regular expressions -/

theorem lexRegexp_of {t v : Bytes} (h : ReBody t v) : ∀ (b acc next : Bytes),
    lexRegexpGo (c! '/') b acc (t ++ c! '/' :: next) = (⟨.re, .str (acc ++ v), none⟩, ⟨(t ++ [c! '/']).reverse ++ b, next⟩) := by
  induction h with
  | nil => intro b acc next; cases next <;> simp [lexRegexpGo]
  | slash t v h ih =>
    intro b acc next
    simp [lexRegexpGo, ih]
  | plain c t v h1 h2 h ih =>
    intro b acc next
    obtain ⟨d, x, hx⟩ : ∃ d x, t ++ c! '/' :: next = d :: x := by cases t <;> simp
    have := ih (c :: b) (acc ++ [c]) next
    rw [hx] at this
    rw [List.cons_append, hx]
    simp [lexRegexpGo, h1, h2, this]
  | backslash c t v h1 h ih =>
    intro b acc next
    have := ih (c! '\\' :: b) (acc ++ [c! '\\']) next
    simp only [List.cons_append] at this
    simp [lexRegexpGo, h1, this]

theorem lexRegexp_inv : ∀ {b acc text s : Bytes} {r : Rd},
    lexRegexpGo (c! '/') b acc text = (⟨.re, .str s, none⟩, r) →
      ∃ t v, ReBody t v ∧ s = acc ++ v ∧ text = t ++ c! '/' :: r.rest ∧ r.before = (t ++ [c! '/']).reverse ++ b
  | b, acc, [], s, r, h => by simp [lexRegexpGo] at h
  | b, acc, [c], s, r, h => by
    simp only [lexRegexpGo] at h
    split at h
    · next hc => simp at h hc; obtain ⟨rfl, rfl⟩ := h; exact ⟨[], [], .nil, by simp, by simp [hc], by simp [hc]⟩
    · simp at h
  | b, acc, c :: d :: ds, s, r, h => by
    simp only [lexRegexpGo] at h
    by_cases h1 : c = c! '/'
    · rw [if_pos (by simpa using h1)] at h
      simp at h; obtain ⟨rfl, rfl⟩ := h; exact ⟨[], [], .nil, by simp, by simp [h1], by simp [h1]⟩
    rw [if_neg (by simpa using h1)] at h
    by_cases h2 : c = c! '\\'
    · subst h2
      by_cases h3 : d = c! '/'
      · subst h3
        rw [if_pos (by simp)] at h
        obtain ⟨t, v, k1, k2, k3, k4⟩ := lexRegexp_inv h
        exact ⟨_, _, .slash t v k1, by simp [k2], by simp [k3], by simp [k4]⟩
      · rw [if_neg (by simpa using h3)] at h
        obtain ⟨t, v, k1, k2, k3, k4⟩ := lexRegexp_inv h
        cases t with
        | nil => simp at k3; exact absurd k3.1 h3
        | cons d' t =>
          simp at k3
          obtain ⟨rfl, k3⟩ := k3
          exact ⟨_, _, .backslash d t v h3 k1, by simp [k2], by simp [k3], by simp [k4]⟩
    · rw [if_neg (by simp [h2])] at h
      obtain ⟨t, v, k1, k2, k3, k4⟩ := lexRegexp_inv h
      exact ⟨_, _, .plain c t v h1 h2 k1, by simp [k2], by simp [k3], by simp [k4]⟩
termination_by _ _ text => text.length

end JP
