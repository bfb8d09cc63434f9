import Verif.Proof.Print
import Verif.Proof.Quote
import Verif.Proof.Format
import Verif.Spec.Leaves
/-! The texts of simple expressions are read as the same expressions. -/
namespace JP
open Spec

variable {env : Env}

/-! ### Strings -/

theorem not_pairAt {q : UInt8} (hq : Quote q) {e t : Bytes} {u : Nat} (h : Escape q e u) (hs : ¬ Surrogate u) : ¬ PairAt q (e ++ t) := by
  rintro ⟨e', u', f, w, t', h1, h2, h3, h4⟩
  obtain ⟨rfl, -⟩ := h.det hq h1 h4
  exact hs ⟨h3.1, by have := h3.2.1; omega⟩

theorem denotes_escape {q : UInt8} (hq : Quote q) {e t v : Bytes} {u : Nat} (h : Escape q e u) (hs : ¬ Surrogate u)
    (ht : Denotes true q t v) : Denotes true q (e ++ t) (utf8 u ++ v) :=
  .escape _ _ _ _ h (not_pairAt hq h hs) (fun _ h => absurd h hs) ht

theorem denotes_plain {q : UInt8} : ∀ {w t v : Bytes}, (∀ c ∈ w, c ≠ q ∧ c ≠ c! '\\' ∧ 0x20 ≤ c) → Denotes true q t v →
    Denotes true q (w ++ t) (w ++ v)
  | [], _, _, _, h => h
  | c :: w, _, _, hw, h => by
    obtain ⟨h1, h2, h3⟩ := hw c (by simp)
    exact .plain _ _ _ h1 h2 h3 (denotes_plain (fun c hc => hw c (by simp [hc])) h)

theorem encodeRune_bytes {r : Nat} (h1 : 0x20 ≤ r) (h2 : r.isValidChar) (h3 : r ≠ 34) (h4 : r ≠ 92) :
    ∀ c ∈ encodeRune r, c ≠ c! '"' ∧ c ≠ c! '\\' ∧ 0x20 ≤ c := by
  have key : ∀ n, 0x20 ≤ n → n < 256 → n ≠ 34 → n ≠ 92 → UInt8.ofNat n ≠ c! '"' ∧ UInt8.ofNat n ≠ c! '\\' ∧ 0x20 ≤ UInt8.ofNat n := by
    decide +kernel
  unfold Nat.isValidChar at h2
  intro c hc
  unfold encodeRune at hc
  split at hc
  · simp at hc; subst hc; exact key _ h1 (by omega) h3 h4
  split at hc
  · simp only [List.mem_cons, List.not_mem_nil, or_false] at hc; rcases hc with rfl | rfl <;> exact key _ (by omega) (by omega) (by omega) (by omega)
  rw [if_neg (by omega)] at hc
  split at hc
  · simp only [List.mem_cons, List.not_mem_nil, or_false] at hc; rcases hc with rfl | rfl | rfl <;> exact key _ (by omega) (by omega) (by omega) (by omega)
  · simp only [List.mem_cons, List.not_mem_nil, or_false] at hc; rcases hc with rfl | rfl | rfl | rfl <;> exact key _ (by omega) (by omega) (by omega) (by omega)

theorem lastHex_escape {q : UInt8} {r : Nat} (h : r < 0x10000) : Escape q (b! "\\u" ++ lastHex 4 r) r := by
  have := Escape.unicode (q := q) _ _ _ _ _ _ _ _ (hex_lowerHex (n := r / 16 / 16 / 16 % 16) (by omega)) (hex_lowerHex (n := r / 16 / 16 % 16) (by omega))
    (hex_lowerHex (n := r / 16 % 16) (by omega)) (hex_lowerHex (n := r % 16) (by omega))
  rw [show 4096 * (r / 16 / 16 / 16 % 16) + 256 * (r / 16 / 16 % 16) + 16 * (r / 16 % 16) + r % 16 = r by omega] at this
  exact this

theorem escapedRune_denotes {r : Nat} {t v : Bytes} (h : PrintsPlain env r) (ht : Denotes true (c! '"') t v) :
    Denotes true (c! '"') (escapedRune env (c! '"') r ++ t) (utf8 r ++ v) := by
  have hq : Quote (c! '"') := .inl rfl
  obtain ⟨hv, h⟩ := h
  have hs : ¬ Surrogate r := by
    unfold Nat.isValidChar at hv; unfold Surrogate; omega
  have put : ∀ {e}, Escape (c! '"') e r → Denotes true (c! '"') (e ++ t) (utf8 r ++ v) := fun he => denotes_escape hq he hs ht
  unfold escapedRune
  by_cases hc : r = (c! '"').toNat ∨ r = 92
  · rw [if_pos hc]
    rcases hc with rfl | rfl
    · exact put .quote
    · exact put .backslash
  rw [if_neg hc]
  rw [not_or] at hc
  by_cases hp : isPrint env r = true
  · rw [if_pos hp, utf8_encode hv]
    have h20 : 0x20 ≤ r := by
      unfold isPrint at hp
      split at hp
      · simp at hp; omega
      · omega
    have := encodeRune_bytes h20 hv hc.1 hc.2
    rw [utf8_encode hv] at this
    exact denotes_plain this ht
  rw [if_neg hp]
  rcases h with h | ⟨h1, h2, h3⟩
  · simp only [List.mem_cons, List.not_mem_nil, or_false] at h
    rcases h with rfl | rfl | rfl | rfl | rfl
    · exact put .backspace
    · exact put .tab
    · exact put .newline
    · exact put .formFeed
    · exact put .return
  · rw [if_neg (by omega), if_neg (by omega), if_neg (by omega), if_neg (by omega), if_neg (by omega), if_neg (by omega), if_neg (by omega),
      if_neg (by omega), if_neg (by unfold Nat.isValidChar at hv; omega)]
    have h4 : r < 0x10000 := by
      rcases h3 with h3 | h3
      · exact h3
      · by_contra hn
        apply hp
        unfold isPrint
        rw [if_neg (by omega)]
        simp [h3]
        omega
    rw [if_pos h4]
    exact put (lastHex_escape h4)

theorem utf8_ne (r : Nat) : utf8 r ≠ [] := by
  unfold utf8
  intro h
  have := congrArg List.length h
  rw [String.length_utf8EncodeChar] at this
  have := Char.utf8Size_pos (if r.isValidChar then Char.ofNat r else '�')
  simp at *

theorem scalar_of {r : Nat} (h : r.isValidChar) : IsScalar r := by
  unfold Nat.isValidChar at h; unfold IsScalar; omega

private theorem ofNat_toNat {n : Nat} (h : n < 256) : (UInt8.ofNat n).toNat = n := by
  rw [UInt8.toNat_ofNat']; omega

theorem runeAt_encode {r : Nat} (h : IsScalar r) (s : Bytes) : runeAt (encodeRune r ++ s) = r := by
  have hl := (runeLen_encode h s).1
  unfold IsScalar at h
  unfold runeAt
  rw [hl]
  unfold encodeRune
  by_cases h1 : r < 0x80
  · rw [if_pos h1]
    show (if UInt8.ofNat r < 0x80 then (UInt8.ofNat r).toNat else 0xFFFD) = r
    rw [if_pos (UInt8.lt_iff_toNat_lt.2 (by rw [ofNat_toNat (by omega)]; exact h1)), ofNat_toNat (by omega)]
  rw [if_neg h1]
  by_cases h2 : r < 0x800
  · rw [if_pos h2]
    show (UInt8.ofNat (0xC0 + r / 64)).toNat % 32 * 64 + (UInt8.ofNat (0x80 + r % 64)).toNat % 64 = r
    rw [ofNat_toNat (by omega), ofNat_toNat (by omega)]; omega
  rw [if_neg h2, if_neg (by omega)]
  by_cases h3 : r < 0x10000
  · rw [if_pos h3]
    show (UInt8.ofNat (0xE0 + r / 4096)).toNat % 16 * 4096 + (UInt8.ofNat (0x80 + r / 64 % 64)).toNat % 64 * 64 +
      (UInt8.ofNat (0x80 + r % 64)).toNat % 64 = r
    rw [ofNat_toNat (by omega), ofNat_toNat (by omega), ofNat_toNat (by omega)]; omega
  · rw [if_neg h3]
    show (UInt8.ofNat (0xF0 + r / 262144)).toNat % 8 * 262144 + (UInt8.ofNat (0x80 + r / 4096 % 64)).toNat % 64 * 4096 +
      (UInt8.ofNat (0x80 + r / 64 % 64)).toNat % 64 * 64 + (UInt8.ofNat (0x80 + r % 64)).toNat % 64 = r
    rw [ofNat_toNat (by omega), ofNat_toNat (by omega), ofNat_toNat (by omega), ofNat_toNat (by omega)]; omega

theorem quotedBody_denotes : ∀ (rs : List Nat) (f : Nat), (∀ r ∈ rs, PrintsPlain env r) → (rs.flatMap utf8).length ≤ f →
    Denotes true (c! '"') (quotedBody env f (rs.flatMap utf8)) (rs.flatMap utf8)
  | [], 0, _, _ => .nil
  | [], _ + 1, _, _ => .nil
  | r :: rs, f, hr, hf => by
    have hv := (hr r (by simp)).1
    rw [List.flatMap_cons] at hf ⊢
    have hp := encodeRune_pos r
    rw [utf8_encode hv] at hp
    cases f with
    | zero => rw [List.length_append] at hf; omega
    | succ f =>
      generalize hs : rs.flatMap utf8 = s at *
      obtain ⟨a, w, hw⟩ : ∃ a w, utf8 r ++ s = a :: w := by
        cases h : utf8 r ++ s with
        | nil => rw [List.append_eq_nil_iff] at h; exact absurd h.1 (utf8_ne r)
        | cons a w => exact ⟨a, w, rfl⟩
      obtain ⟨hl, -⟩ := runeLen_encode (scalar_of hv) s
      have hra := runeAt_encode (scalar_of hv) s
      rw [utf8_encode hv, hw] at hl hra
      have hd : (a :: w).drop (runeLen (a :: w)) = s := by rw [hl, ← hw, List.drop_left]
      rw [hw, quotedBody, hra, hd, if_neg, ← hw]
      · have := quotedBody_denotes rs f (fun r h => hr r (by simp [h])) (by rw [hs]; rw [List.length_append] at hf; omega)
        rw [hs] at this
        exact escapedRune_denotes (hr r (by simp)) this
      · rintro ⟨h1, h2⟩
        subst h2
        rw [hl] at h1
        revert h1; decide +kernel

/-! ### Numbers -/

theorem formatMag_head {x : F64} : ∃ c w, formatMag x = c :: w ∧ Digit c := by
  unfold formatMag
  split
  · exact ⟨_, _, rfl, digit_zero⟩
  simp only
  obtain ⟨n1, -⟩ := natToBytes_spec (shortest x).1
  generalize natToBytes (shortest x).1 = ds at *
  obtain ⟨d, r, rfl⟩ := List.exists_cons_of_ne_nil n1.1
  have hd := n1.2 d (by simp)
  split
  · unfold formatE
    cases r <;> exact ⟨_, _, rfl, hd⟩
  · unfold formatF
    split
    · exact ⟨_, _, rfl, digit_zero⟩
    split
    · exact ⟨_, _, rfl, hd⟩
    · next h1 h2 h3 =>
      obtain ⟨n, hn⟩ : ∃ n : Nat, (((d :: r).length : ℤ) + (shortest x).2).toNat = n + 1 := ⟨_, (Nat.succ_pred_eq_of_pos (by omega)).symm⟩
      rw [hn]
      exact ⟨_, _, rfl, hd⟩

theorem fmtFloat_real {x : F64} (hf : x.Finite) (hn : x.neg? = false) (hp : c! '.' ∈ fmtFloat x) : RealText (fmtFloat x) [] := by
  have hd : ∀ {ds : Bytes}, All Digit ds → c! '.' ∉ ds := fun h hc => absurd (h _ hc).1 (by decide)
  have hx : ∀ {ex : Bytes} {e : ℤ}, Exp ex e → c! '.' ∉ ex := by
    intro ex e h
    cases h with
    | none => simp
    | pos e sign ds h1 h2 h3 => rcases h1 with rfl | rfl <;> rcases h2 with rfl | rfl <;> simp [hd h3.2]
    | neg e ds h1 h3 => rcases h1 with rfl | rfl <;> simp [hd h3.2]
  rw [fmtFloat_finite hf, hn] at hp ⊢
  simp only [Bool.false_eq_true, if_false] at hp ⊢
  have h0 : x.mag ≠ 0 := by
    intro h0
    unfold formatMag at hp
    rw [if_pos h0] at hp
    simp at hp
  obtain ⟨e, hu, -⟩ := formatMag_spec hf h0
  obtain ⟨c, w, hw, hc⟩ := formatMag_head (x := x)
  generalize formatMag x = t at *
  generalize ((shortest x).1 * 10 ^ (shortest x).2 : ℚ) = q at hu
  cases hu with
  | whole ds ex e h1 h2 => rw [List.mem_append] at hp; exact absurd hp (by rintro (h | h); exacts [hd h1.2 h, hx h2 h])
  | point ds fs ex e h1 h2 h3 h4 =>
    refine real_text (.mk ds fs ex e ⟨?_, h1⟩ h2 h4)
    rintro rfl
    cases hw
    exact absurd hc.1 (by decide)

theorem natDigits_write : ∀ f n : Nat, n < f → natDigits f n = writeNat n
  | 0, n, h => by omega
  | f + 1, n, h => by
    rw [natDigits, writeNat]
    split
    · rfl
    · rw [natDigits_write f (n / 10) (by omega)]

theorem intToBytes_write (z : Int) : intToBytes z = writeInt z := by
  unfold intToBytes writeInt natToBytes
  rw [natDigits_write _ _ (Nat.lt_succ_self _)]

/-! ### All leaves -/

theorem natToBytes_eq (n : Nat) (h : n < 2 ^ 63) : ExprWord env.parseFloat (intTok (Int64.ofNat n)) (natToBytes n) [] := by
  obtain ⟨hd, he⟩ := natToBytes_spec n
  have := ExprWord.int (pf := env.parseFloat) _ [] hd (.nil _) (by rw [he]; exact h)
  rwa [he] at this

theorem leaf_back {e : Expr} (h : PrintedLeaf env e) : parseScriptExpression env (e.text env) = .ok e := by
  suffices Back env (e.text env) e by
    obtain ⟨ts, h1, h2⟩ := this
    exact parseScript_written h1 h2
  cases h with
  | int n h =>
    obtain ⟨h1, h2⟩ := int_nat h
    have := natToBytes_eq (env := env) n.toInt.natAbs h2
    rw [← h1] at this
    rw [Expr.text, intToBytes, if_neg (by omega)]
    exact .atom (written_one this) (.int n)
  | float f h1 h2 h3 => exact .atom (written_one (.real _ _ _ (fmtFloat_real h1 h2 h3) (parseFloat_fmtFloat env h1))) (.real f)
  | str rs h =>
    have := (quotedBody_denotes (env := env) rs _ h (Nat.le_refl _)).body.lit (.inl rfl)
    exact .atom (written_one (strWordX.mpr this)) (.str _)
  | bool b =>
    cases b
    · exact .atom (written_one (.name (c! 'f') (b! "alse") [] (by simp [Letter]) (by simp [All, LetterDigit, Letter]) (.nil _))) .fls
    · exact .atom (written_one (.name (c! 't') (b! "rue") [] (by simp [Letter]) (by simp [All, LetterDigit, Letter]) (.nil _))) .tru
  | null => exact .atom (written_one (.name (c! 'n') (b! "ull") [] (by simp [Letter]) (by simp [All, LetterDigit, Letter]) (.nil _))) .nul
  | name s h h1 h2 h3 => exact .atom (written_one (ident_word h)) (.name s h1 h2 h3)
  | current => exact .atom (.punctX (by decide) (.nil _ White.nil)) .current
  | root => exact .atom (.punctX (by decide) (.nil _ White.nil)) .root

end JP
