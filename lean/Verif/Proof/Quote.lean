import Verif.Model.Text
import Verif.Spec.GoLiteral
import Verif.Proof.Lexical
import Verif.Proof.Runes
/-! Quoted texts are literals of the Go language that denote what was quoted. -/
namespace JP
open Spec

/-! ### Decoding UTF-8 -/

/-- What decoding the first character of a text gives. -/
inductive Decoded (s : Bytes) : Prop
  | bad (a t) : s = a :: t → 0x80 ≤ a → runeLen s = 1 → runeAt s = 0xFFFD → Decoded s
  | rune (t) : (runeAt s).isValidChar → s = encodeRune (runeAt s) ++ t → runeLen s = (encodeRune (runeAt s)).length →
      (runeLen s = 1 ↔ runeAt s < 0x80) → Decoded s

private theorem ofNat_eq {a : UInt8} {n : Nat} (h : n = a.toNat) : UInt8.ofNat n = a := by
  subst h; exact UInt8.ofNat_toNat

theorem decoded (a : UInt8) (r : Bytes) : Decoded (a :: r) := by
  have bad : ¬ a < 0x80 → runeLen (a :: r) = 1 → Decoded (a :: r) := fun h1 h2 => by
    refine .bad a r rfl (UInt8.not_lt.1 h1) h2 ?_
    unfold runeAt
    rw [h2]
    simp [h1]
  by_cases h1 : a < 0x80
  · have hl : runeLen (a :: r) = 1 := by simp [runeLen, h1]
    have hr : runeAt (a :: r) = a.toNat := by unfold runeAt; rw [hl]; simp [h1]
    have hn : a.toNat < 0x80 := UInt8.lt_iff_toNat_lt.1 h1
    have he : encodeRune a.toNat = [a] := by simp [encodeRune, hn]
    refine .rune r ?_ ?_ ?_ ?_
    · rw [hr]; exact Or.inl (by omega)
    · rw [hr, he]; rfl
    · rw [hr, he, hl]; rfl
    · rw [hr, hl]; simp [hn]
  have ha := UInt8.not_lt.1 h1
  by_cases h2 : 0xC2 ≤ a ∧ a ≤ 0xDF
  · match r with
    | [] => exact bad h1 (by simp [runeLen, h1, h2])
    | b :: t =>
      by_cases hb : isCont b
      · have hl : runeLen (a :: b :: t) = 2 := by simp [runeLen, h1, h2, hb]
        have hr : runeAt (a :: b :: t) = a.toNat % 32 * 64 + b.toNat % 64 := by unfold runeAt; rw [hl]; rfl
        simp only [isCont, Bool.and_eq_true, decide_eq_true_eq, UInt8.le_iff_toNat_le] at hb h2
        simp at hb h2
        have he : encodeRune (a.toNat % 32 * 64 + b.toNat % 64) = [a, b] := by
          unfold encodeRune
          rw [if_neg (by omega), if_pos (by omega), ofNat_eq (a := a) (by omega), ofNat_eq (a := b) (by omega)]
        refine .rune t ?_ ?_ ?_ ?_
        · rw [hr]; exact Or.inl (by omega)
        · rw [hr, he]; rfl
        · rw [hr, he, hl]; rfl
        · rw [hr, hl]; omega
      · exact bad h1 (by simp [runeLen, h1, h2, hb])
  by_cases h3 : 0xE0 ≤ a ∧ a ≤ 0xEF
  · match r with
    | [] | [_] => exact bad h1 (by simp [runeLen, h1, h2, h3])
    | b :: c :: t =>
      by_cases hb : ((if a == 0xE0 then (0xA0 : UInt8) else 0x80) ≤ b && b ≤ (if a == 0xED then (0x9F : UInt8) else 0xBF) && isCont c) = true
      · have hl : runeLen (a :: b :: c :: t) = 3 := by
          simp only [Bool.and_eq_true, decide_eq_true_eq, beq_iff_eq] at hb
          simp [runeLen, h1, h2, h3, hb]
        have hr : runeAt (a :: b :: c :: t) = a.toNat % 16 * 4096 + b.toNat % 64 * 64 + c.toNat % 64 := by unfold runeAt; rw [hl]; rfl
        simp only [isCont, Bool.and_eq_true, decide_eq_true_eq] at hb
        have hb1 : 0x80 ≤ b.toNat ∧ b.toNat ≤ 0xBF ∧ (a.toNat = 0xE0 → 0xA0 ≤ b.toNat) ∧ (a.toNat = 0xED → b.toNat ≤ 0x9F) := by
          obtain ⟨⟨x, y⟩, -⟩ := hb
          by_cases e1 : a = 0xE0
          · subst e1
            simp [UInt8.le_iff_toNat_le] at x y ⊢
            omega
          · by_cases e2 : a = 0xED
            · subst e2
              simp [UInt8.le_iff_toNat_le] at x y ⊢
              omega
            · simp [e1, e2, UInt8.le_iff_toNat_le] at x y
              refine ⟨x, y, fun h => absurd (UInt8.toNat_inj.1 (h : a.toNat = (0xE0 : UInt8).toNat)) e1, fun h => absurd (UInt8.toNat_inj.1 (h : a.toNat = (0xED : UInt8).toNat)) e2⟩
        have hc := hb.2
        simp only [UInt8.le_iff_toNat_le] at hc h3
        simp at hc h3
        have he : encodeRune (a.toNat % 16 * 4096 + b.toNat % 64 * 64 + c.toNat % 64) = [a, b, c] := by
          unfold encodeRune
          rw [if_neg (by omega), if_neg (by omega), if_neg (by omega), if_pos (by omega), ofNat_eq (a := a) (by omega),
            ofNat_eq (a := b) (by omega), ofNat_eq (a := c) (by omega)]
        refine .rune t ?_ ?_ ?_ ?_
        · rw [hr]; unfold Nat.isValidChar; omega
        · rw [hr, he]; rfl
        · rw [hr, he, hl]; rfl
        · rw [hr, hl]; omega
      · refine bad h1 ?_
        simp [runeLen, h1, h2, h3]
        simpa using hb
  by_cases h4 : 0xF0 ≤ a ∧ a ≤ 0xF4
  · match r with
    | [] | [_] | [_, _] => exact bad h1 (by simp [runeLen, h1, h2, h3, h4])
    | b :: c :: d :: t =>
      by_cases hb : ((if a == 0xF0 then (0x90 : UInt8) else 0x80) ≤ b && b ≤ (if a == 0xF4 then (0x8F : UInt8) else 0xBF) && isCont c && isCont d) = true
      · have hl : runeLen (a :: b :: c :: d :: t) = 4 := by
          simp only [Bool.and_eq_true, decide_eq_true_eq, beq_iff_eq] at hb
          simp [runeLen, h1, h2, h3, h4, hb]
        have hr : runeAt (a :: b :: c :: d :: t) = a.toNat % 8 * 262144 + b.toNat % 64 * 4096 + c.toNat % 64 * 64 + d.toNat % 64 := by
          unfold runeAt; rw [hl]; rfl
        simp only [isCont, Bool.and_eq_true, decide_eq_true_eq] at hb
        have hb1 : 0x80 ≤ b.toNat ∧ b.toNat ≤ 0xBF ∧ (a.toNat = 0xF0 → 0x90 ≤ b.toNat) ∧ (a.toNat = 0xF4 → b.toNat ≤ 0x8F) := by
          obtain ⟨⟨⟨x, y⟩, -⟩, -⟩ := hb
          by_cases e1 : a = 0xF0
          · subst e1
            simp [UInt8.le_iff_toNat_le] at x y ⊢
            omega
          · by_cases e2 : a = 0xF4
            · subst e2
              simp [UInt8.le_iff_toNat_le] at x y ⊢
              omega
            · simp [e1, e2, UInt8.le_iff_toNat_le] at x y
              refine ⟨x, y, fun h => absurd (UInt8.toNat_inj.1 (h : a.toNat = (0xF0 : UInt8).toNat)) e1, fun h => absurd (UInt8.toNat_inj.1 (h : a.toNat = (0xF4 : UInt8).toNat)) e2⟩
        have hc := hb.1.2
        have hd := hb.2
        simp only [UInt8.le_iff_toNat_le] at hc hd h4
        simp at hc hd h4
        have he : encodeRune (a.toNat % 8 * 262144 + b.toNat % 64 * 4096 + c.toNat % 64 * 64 + d.toNat % 64) = [a, b, c, d] := by
          unfold encodeRune
          rw [if_neg (by omega), if_neg (by omega), if_neg (by omega), if_neg (by omega), ofNat_eq (a := a) (by omega),
            ofNat_eq (a := b) (by omega), ofNat_eq (a := c) (by omega), ofNat_eq (a := d) (by omega)]
        refine .rune t ?_ ?_ ?_ ?_
        · rw [hr]; unfold Nat.isValidChar; omega
        · rw [hr, he]; rfl
        · rw [hr, he, hl]; rfl
        · rw [hr, hl]; omega
      · refine bad h1 ?_
        simp [runeLen, h1, h2, h3, h4]
        simpa using hb
  · exact bad h1 (by simp [runeLen, h1, h2, h3, h4])

/-! ### Quoting -/

theorem utf8_encode {r : Nat} (h : r.isValidChar) : encodeRune r = utf8 r :=
  utf8_eq r (by unfold Nat.isValidChar at h; omega)

theorem hex_lowerHex {n : Nat} (h : n < 16) : Hex (lowerHex n) n := by
  unfold lowerHex
  by_cases h1 : n < 10
  · rw [if_pos h1]; exact .digit n h1
  · rw [if_neg h1]
    have := Hex.lower (n - 10) (by omega)
    rwa [show 97 + (n - 10) = 87 + n by omega, show 10 + (n - 10) = n by omega] at this

theorem hexNumber_lastHex : ∀ k n : Nat, HexNumber (lastHex k n) (n % 16 ^ k) ∧ (lastHex k n).length = k
  | 0, n => by
    rw [lastHex, Nat.pow_zero, Nat.mod_one]
    exact ⟨.nil, rfl⟩
  | k + 1, n => by
    obtain ⟨h1, h2⟩ := hexNumber_lastHex k (n / 16)
    rw [lastHex]
    have := HexNumber.snoc _ _ _ _ h1 (hex_lowerHex (n := n % 16) (by omega))
    rw [show 16 * (n / 16 % 16 ^ k) + n % 16 = n % 16 ^ (k + 1) by
      rw [Nat.pow_succ, Nat.mul_comm (16 ^ k) 16, Nat.mod_mul]; omega] at this
    exact ⟨this, by simp [h2]⟩

/-- An escaped rune stands for the rune. -/
theorem escapedRune_unit (env : Env) {r : Nat} (h : r.isValidChar) : GoUnit (escapedRune env (c! '"') r) (encodeRune r) := by
  have low : r < 0x80 → encodeRune r = [UInt8.ofNat r] := fun h => by simp [encodeRune, h]
  unfold escapedRune
  by_cases hq : r = (c! '"').toNat ∨ r = 92
  · rw [if_pos hq]
    rcases hq with rfl | rfl
    · exact .letter _ _ (by decide)
    · exact .letter _ _ (by decide)
  rw [if_neg hq]
  rw [not_or] at hq
  by_cases hp : isPrint env r = true
  · rw [if_pos hp, utf8_encode h]
    unfold isPrint at hp
    refine .char r ⟨h, ?_, ?_⟩ ?_ hq.1 hq.2
    · rintro rfl; simp at hp
    · rintro rfl; simp at hp
    · rintro rfl; simp at hp
  rw [if_neg hp]
  by_cases e : r = 7
  · rw [if_pos e]; subst e; exact .letter _ _ (by decide)
  rw [if_neg e]; clear e
  by_cases e : r = 8
  · rw [if_pos e]; subst e; exact .letter _ _ (by decide)
  rw [if_neg e]; clear e
  by_cases e : r = 12
  · rw [if_pos e]; subst e; exact .letter _ _ (by decide)
  rw [if_neg e]; clear e
  by_cases e : r = 10
  · rw [if_pos e]; subst e; exact .letter _ _ (by decide)
  rw [if_neg e]; clear e
  by_cases e : r = 13
  · rw [if_pos e]; subst e; exact .letter _ _ (by decide)
  rw [if_neg e]; clear e
  by_cases e : r = 9
  · rw [if_pos e]; subst e; exact .letter _ _ (by decide)
  rw [if_neg e]; clear e
  by_cases e : r = 11
  · rw [if_pos e]; subst e; exact .letter _ _ (by decide)
  rw [if_neg e]; clear e
  by_cases e : r < 32 ∨ r = 0x7F
  · rw [if_pos e, low (by omega)]
    obtain ⟨h1, h2⟩ := hexNumber_lastHex 2 r
    rw [Nat.mod_eq_of_lt (by omega)] at h1
    exact .byte _ _ h1 h2
  rw [if_neg e, if_neg (by unfold Nat.isValidChar at h; omega)]
  by_cases e' : r < 0x10000
  · rw [if_pos e']
    obtain ⟨h1, h2⟩ := hexNumber_lastHex 4 r
    rw [Nat.mod_eq_of_lt (by omega)] at h1
    rw [utf8_encode h]
    exact .short _ _ h1 h2 h
  · rw [if_neg e']
    obtain ⟨h1, h2⟩ := hexNumber_lastHex 8 r
    rw [Nat.mod_eq_of_lt (by unfold Nat.isValidChar at h; omega)] at h1
    rw [utf8_encode h]
    exact .long _ _ h1 h2 h

theorem encodeRune_pos (r : Nat) : 0 < (encodeRune r).length := by
  unfold encodeRune
  split
  · simp
  split
  · simp
  split
  · simp
  split <;> simp

theorem quotedBody_spec (env : Env) : ∀ (f : Nat) (s : Bytes), s.length ≤ f → GoBody (quotedBody env f s) s
  | 0, s, h => by
    obtain rfl := List.length_eq_zero_iff.1 (Nat.le_zero.1 h)
    exact .nil
  | f + 1, [], _ => .nil
  | f + 1, a :: r, h => by
    rw [quotedBody]
    rcases decoded a r with ⟨b, t, hs, hb, hl, hr⟩ | ⟨t, hv, hs, hl, hlow⟩
    · rw [if_pos ⟨hl, hr⟩, hl]
      cases hs
      have := quotedBody_spec env f r (by simpa using h)
      obtain ⟨h1, h2⟩ := hexNumber_lastHex 2 a.toNat
      have ha : a.toNat < 256 := a.toNat_lt
      rw [Nat.mod_eq_of_lt (by omega)] at h1
      have hu := GoUnit.byte _ _ h1 h2
      rw [UInt8.ofNat_toNat] at hu
      exact .cons _ _ _ _ hu this
    · rw [if_neg (by rintro ⟨h1, h2⟩; rw [hlow, h2] at h1; omega), hl]
      have hp := encodeRune_pos (runeAt (a :: r))
      have hd : List.drop (encodeRune (runeAt (a :: r))).length (a :: r) = t := by
        have := congrArg (List.drop (encodeRune (runeAt (a :: r))).length) hs
        rwa [List.drop_left] at this
      rw [hd]
      have ht : t.length ≤ f := by
        have := congrArg List.length hs
        rw [List.length_append] at this
        simp only [List.length_cons] at this h
        omega
      have := GoBody.cons _ _ _ _ (escapedRune_unit env hv) (quotedBody_spec env f t ht)
      rwa [← hs] at this

theorem goQuote_spec (env : Env) (s : Bytes) : GoLiteral (goQuote env s) s := .interpreted _ _ (quotedBody_spec env _ s (Nat.le_refl _))

theorem canBackquote_spec : ∀ (f : Nat) (s : Bytes), s.length ≤ f → canBackquoteGo f s = true →
    ∃ rs : List Nat, s = rs.flatMap utf8 ∧ ∀ r ∈ rs, SourceChar r ∧ r ≠ 96 ∧ r ≠ 13
  | 0, s, h, _ => by
    obtain rfl := List.length_eq_zero_iff.1 (Nat.le_zero.1 h)
    exact ⟨[], rfl, by simp⟩
  | f + 1, [], _, _ => ⟨[], rfl, by simp⟩
  | f + 1, a :: r, h, hc => by
    rw [canBackquoteGo] at hc
    rcases decoded a r with ⟨b, t, hs, hb, hl, hr⟩ | ⟨t, hv, hs, hl, hlow⟩
    · rw [if_neg (by omega), if_pos (Or.inl hr)] at hc
      cases hc
    · have hp := encodeRune_pos (runeAt (a :: r))
      have hd : List.drop (runeLen (a :: r)) (a :: r) = t := by
        have := congrArg (List.drop (encodeRune (runeAt (a :: r))).length) hs
        rw [List.drop_left] at this
        rwa [hl]
      have ht : t.length ≤ f := by
        have := congrArg List.length hs
        rw [List.length_append] at this
        simp only [List.length_cons] at this h
        omega
      rw [hd] at hc
      have key : canBackquoteGo f t = true → (SourceChar (runeAt (a :: r)) ∧ runeAt (a :: r) ≠ 96 ∧ runeAt (a :: r) ≠ 13) →
          ∃ rs : List Nat, a :: r = rs.flatMap utf8 ∧ ∀ r ∈ rs, SourceChar r ∧ r ≠ 96 ∧ r ≠ 13 := fun h1 h2 => by
        obtain ⟨rs, e1, e2⟩ := canBackquote_spec f t ht h1
        refine ⟨runeAt (a :: r) :: rs, ?_, ?_⟩
        · rw [List.flatMap_cons, ← utf8_encode hv, ← e1]
          exact hs
        · intro x hx
          rcases List.mem_cons.1 hx with rfl | hx
          · exact h2
          · exact e2 x hx
      by_cases h1 : 1 < runeLen (a :: r)
      · rw [if_pos h1, Bool.and_eq_true, bne_iff_ne] at hc
        have : ¬ runeAt (a :: r) < 0x80 := fun h => by rw [← hlow] at h; omega
        exact key hc.2 ⟨⟨hv, by omega, hc.1⟩, by omega, by omega⟩
      · rw [if_neg h1] at hc
        split at hc
        · cases hc
        · next hne => exact key hc ⟨⟨hv, by omega, by rw [hl] at h1; have := hlow.1 (by omega); omega⟩, by omega, by omega⟩

/-- A quoted text is a literal that denotes the text. -/
theorem quote_spec (env : Env) (s : Bytes) : GoLiteral (quote env s) s := by
  unfold quote
  split
  · next h =>
    obtain ⟨rs, h1, h2⟩ := canBackquote_spec _ s (Nat.le_refl _) h
    have := GoLiteral.raw rs fun r hr => ⟨(h2 r hr).1, (h2 r hr).2.1⟩
    rw [List.filter_eq_self.2 fun r hr => by simpa using (h2 r hr).2.2, ← h1] at this
    exact this
  · exact goQuote_spec env s

/-! ### Literals end where they end -/

private theorem hex_value {c : UInt8} {i : Nat} (h : Hex c i) : (i < 10 ∧ c.toNat = 48 + i) ∨ (10 ≤ i ∧ i < 16 ∧ (c.toNat = 87 + i ∨ c.toNat = 55 + i)) := by
  cases h with
  | digit n h => rw [UInt8.toNat_ofNat']; omega
  | lower n h => rw [UInt8.toNat_ofNat']; omega
  | upper n h => rw [UInt8.toNat_ofNat']; omega

theorem Spec.Hex.unique {c : UInt8} {i j : Nat} (h1 : Hex c i) (h2 : Hex c j) : i = j := by
  have := hex_value h1
  have := hex_value h2
  omega

theorem Spec.HexNumber.unique {t : Bytes} {m n : Nat} (h1 : HexNumber t m) (h2 : HexNumber t n) : m = n := by
  induction h1 generalizing n with
  | nil =>
    generalize ht : ([] : Bytes) = t at h2
    cases h2 with
    | nil => rfl
    | snoc => simp at ht
  | snoc t m c i _ hc ih =>
    generalize ht : t ++ [c] = u at h2
    cases h2 with
    | nil => simp at ht
    | snoc t' m' c' i' h' hc' =>
      obtain ⟨e1, e2⟩ := List.append_inj' ht rfl
      cases e1
      cases e2
      rw [ih h', hc.unique hc']

theorem utf8_head {r : Nat} (h : r.isValidChar) : ∃ c t, utf8 r = c :: t ∧ (c.toNat = r ∨ 0x80 ≤ c.toNat) := by
  rw [← utf8_encode h]
  unfold encodeRune
  split
  · next hr => exact ⟨_, _, rfl, Or.inl (by rw [UInt8.toNat_ofNat']; omega)⟩
  split
  · next hr => exact ⟨_, _, rfl, Or.inr (by rw [UInt8.toNat_ofNat']; omega)⟩
  split
  · exact ⟨_, _, rfl, Or.inr (by decide)⟩
  split
  · next hr => exact ⟨_, _, rfl, Or.inr (by rw [UInt8.toNat_ofNat']; omega)⟩
  · unfold Nat.isValidChar at h
    exact ⟨_, _, rfl, Or.inr (by rw [UInt8.toNat_ofNat']; omega)⟩

theorem utf8_prefix {r r' : Nat} (h : r.isValidChar) (h' : r'.isValidChar) {x y : Bytes} (he : utf8 r ++ x = utf8 r' ++ y) :
    utf8 r = utf8 r' ∧ x = y := by
  have v : ∀ {r : Nat}, r.isValidChar → IsScalar r := fun h => by unfold Nat.isValidChar at h; unfold IsScalar; omega
  have h1 := (runeLen_encode (v h) x).1
  have h2 := (runeLen_encode (v h') y).1
  rw [utf8_encode h] at h1
  rw [utf8_encode h'] at h2
  rw [he, h2] at h1
  exact List.append_inj he h1.symm

/-- Units of a literal are not prefixes of each other. -/
theorem Spec.GoUnit.prefix {a v b w x y : Bytes} (h1 : GoUnit a v) (h2 : GoUnit b w) (he : a ++ x = b ++ y) : a = b ∧ v = w ∧ x = y := by
  have lett : ∀ {e c : UInt8}, (e, c) ∈ goEscapes → ∀ {c'}, (e, c') ∈ goEscapes → c = c' := by
    intro e c h c' h'
    simp only [goEscapes, List.mem_cons, Prod.mk.injEq, List.not_mem_nil, or_false] at h h'
    rcases h with ⟨rfl, rfl⟩ | ⟨rfl, rfl⟩ | ⟨rfl, rfl⟩ | ⟨rfl, rfl⟩ | ⟨rfl, rfl⟩ | ⟨rfl, rfl⟩ | ⟨rfl, rfl⟩ | ⟨rfl, rfl⟩ | ⟨rfl, rfl⟩ <;>
      revert h' <;> simp <;> exact Eq.symm
  have notHex : ∀ {e c : UInt8}, (e, c) ∈ goEscapes → e ≠ c! 'x' ∧ e ≠ c! 'u' ∧ e ≠ c! 'U' ∧ ¬ (48 ≤ e.toNat ∧ e.toNat < 56) := by
    intro e c h
    simp only [goEscapes, List.mem_cons, Prod.mk.injEq, List.not_mem_nil, or_false] at h
    rcases h with ⟨rfl, rfl⟩ | ⟨rfl, rfl⟩ | ⟨rfl, rfl⟩ | ⟨rfl, rfl⟩ | ⟨rfl, rfl⟩ | ⟨rfl, rfl⟩ | ⟨rfl, rfl⟩ | ⟨rfl, rfl⟩ | ⟨rfl, rfl⟩ <;> decide
  have oct : ∀ {c : UInt8} {i : Nat}, Octal c i → i < 8 ∧ c.toNat = 48 + i := by
    intro c i h
    cases h with
    | digit n h => rw [UInt8.toNat_ofNat']; omega
  have octN : ∀ {c : UInt8} {i : Nat}, Octal c i → c ≠ c! 'x' ∧ c ≠ c! 'u' ∧ c ≠ c! 'U' := by
    intro c i h
    have := oct h
    refine ⟨?_, ?_, ?_⟩ <;> (rintro rfl; simp at this; omega)
  have octU : ∀ {c : UInt8} {i j : Nat}, Octal c i → Octal c j → i = j := by
    intro c i j h h'
    have := oct h
    have := oct h'
    omega
  have chr : ∀ {r : Nat}, SourceChar r → r ≠ 92 → ∀ {t u : Bytes}, utf8 r ++ t = c! '\\' :: u → False := by
    intro r h h92 t u h'
    obtain ⟨c, s, hc, hv⟩ := utf8_head h.1
    rw [hc] at h'
    have := (List.cons.inj h').1
    subst this
    simp at hv
    omega
  cases h1 with
  | char r hr _ _ h92 =>
    cases h2 with
    | char r' hr' =>
      obtain ⟨e1, e2⟩ := utf8_prefix hr.1 hr'.1 he
      exact ⟨e1, e1, e2⟩
    | letter | octal | byte | short | long => exact (chr hr h92 he).elim
  | letter e c h =>
    cases h2 with
    | char r' hr' _ _ h92 => exact (chr hr' h92 he.symm).elim
    | letter e' c' h' =>
      simp only [List.cons_append, List.nil_append, List.cons.injEq, true_and] at he
      obtain ⟨rfl, rfl⟩ := he
      rw [lett h h']
      simp
    | octal a b c i j k ha =>
      simp only [List.cons_append, List.cons.injEq, true_and] at he
      have := oct ha
      have := notHex h
      rw [he.1] at this
      omega
    | byte | short | long =>
      simp only [List.cons_append, List.cons.injEq, true_and] at he
      have := notHex h
      simp [he.1] at this
  | octal a b c i j k ha hb hc =>
    cases h2 with
    | char r' hr' _ _ h92 => exact (chr hr' h92 he.symm).elim
    | letter e' c' h' =>
      simp only [List.cons_append, List.cons.injEq, true_and] at he
      have := oct ha
      have := notHex h'
      rw [← he.1] at this
      omega
    | octal a' b' c' i' j' k' ha' hb' hc' =>
      simp only [List.cons_append, List.nil_append, List.cons.injEq, true_and] at he
      obtain ⟨rfl, rfl, rfl, rfl⟩ := he
      rw [octU ha ha', octU hb hb', octU hc hc']
      simp
    | byte | short | long =>
      simp only [List.cons_append, List.cons.injEq, true_and] at he
      have := octN ha
      simp [he.1] at this
  | byte t n h hl =>
    cases h2 with
    | char r' hr' _ _ h92 => exact (chr hr' h92 he.symm).elim
    | letter e' c' h' =>
      simp only [List.cons_append, List.cons.injEq, true_and] at he
      have := notHex h'
      simp [← he.1] at this
    | octal a b c i j k ha =>
      simp only [List.cons_append, List.cons.injEq, true_and] at he
      have := octN ha
      simp [← he.1] at this
    | byte t' n' h' hl' =>
      simp only [List.cons_append, List.cons.injEq, true_and] at he
      obtain ⟨rfl, rfl⟩ := List.append_inj he (by omega)
      rw [h.unique h']
      simp
    | short | long => simp at he
  | short t n h hl =>
    cases h2 with
    | char r' hr' _ _ h92 => exact (chr hr' h92 he.symm).elim
    | letter e' c' h' =>
      simp only [List.cons_append, List.cons.injEq, true_and] at he
      have := notHex h'
      simp [← he.1] at this
    | octal a b c i j k ha =>
      simp only [List.cons_append, List.cons.injEq, true_and] at he
      have := octN ha
      simp [← he.1] at this
    | short t' n' h' hl' =>
      simp only [List.cons_append, List.cons.injEq, true_and] at he
      obtain ⟨rfl, rfl⟩ := List.append_inj he (by omega)
      rw [h.unique h']
      simp
    | byte | long => simp at he
  | long t n h hl =>
    cases h2 with
    | char r' hr' _ _ h92 => exact (chr hr' h92 he.symm).elim
    | letter e' c' h' =>
      simp only [List.cons_append, List.cons.injEq, true_and] at he
      have := notHex h'
      simp [← he.1] at this
    | octal a b c i j k ha =>
      simp only [List.cons_append, List.cons.injEq, true_and] at he
      have := octN ha
      simp [← he.1] at this
    | long t' n' h' hl' =>
      simp only [List.cons_append, List.cons.injEq, true_and] at he
      obtain ⟨rfl, rfl⟩ := List.append_inj he (by omega)
      rw [h.unique h']
      simp
    | byte | short => simp at he

theorem Spec.GoUnit.head {a v : Bytes} (h : GoUnit a v) : ∃ c t, a = c :: t ∧ c ≠ c! '"' := by
  cases h with
  | char r hr _ h34 _ =>
    obtain ⟨c, s, hc, hv⟩ := utf8_head hr.1
    refine ⟨c, s, hc, ?_⟩
    rintro rfl
    simp at hv
    omega
  | letter | octal | byte | short | long => exact ⟨_, _, rfl, by decide⟩

theorem Spec.GoBody.prefix {a v b w x y : Bytes} (h1 : GoBody a v) (h2 : GoBody b w) (he : a ++ c! '"' :: x = b ++ c! '"' :: y) :
    a = b ∧ v = w ∧ x = y := by
  induction h1 generalizing b w with
  | nil =>
    cases h2 with
    | nil => simpa using he
    | cons a' v' t' w' hu =>
      obtain ⟨c, t, rfl, hc⟩ := hu.head
      simp only [List.nil_append, List.cons_append, List.cons.injEq] at he
      exact absurd he.1.symm hc
  | cons a v t w hu _ ih =>
    cases h2 with
    | nil =>
      obtain ⟨c, t, rfl, hc⟩ := hu.head
      simp only [List.nil_append, List.cons_append, List.cons.injEq] at he
      exact absurd he.1 hc
    | cons a' v' t' w' hu' hb' =>
      rw [List.append_assoc, List.append_assoc] at he
      obtain ⟨rfl, rfl, he⟩ := hu.prefix hu' he
      obtain ⟨rfl, rfl, rfl⟩ := ih hb' he
      exact ⟨rfl, rfl, rfl⟩

theorem raw_prefix {x y : Bytes} : ∀ {rs ss : List Nat}, (∀ r ∈ rs, SourceChar r ∧ r ≠ 96) → (∀ r ∈ ss, SourceChar r ∧ r ≠ 96) →
    rs.flatMap utf8 ++ c! '`' :: x = ss.flatMap utf8 ++ c! '`' :: y →
    rs.flatMap utf8 = ss.flatMap utf8 ∧ (rs.filter (· ≠ 13)).flatMap utf8 = (ss.filter (· ≠ 13)).flatMap utf8 ∧ x = y := by
  have first : ∀ {r : Nat}, SourceChar r ∧ r ≠ 96 → ∀ {t u : Bytes}, utf8 r ++ t = c! '`' :: u → False := by
    intro r h t u h'
    obtain ⟨c, s, hc, hv⟩ := utf8_head h.1.1
    rw [hc] at h'
    have := (List.cons.inj h').1
    subst this
    simp at hv
    omega
  intro rs
  induction rs with
  | nil =>
    intro ss _ hs he
    cases ss with
    | nil => simpa using he
    | cons s ss =>
      rw [List.flatMap_cons, List.append_assoc] at he
      exact (first (hs s (by simp)) he.symm).elim
  | cons r rs ih =>
    intro ss hr hs he
    cases ss with
    | nil =>
      rw [List.flatMap_cons, List.append_assoc] at he
      exact (first (hr r (by simp)) he).elim
    | cons s ss =>
      rw [List.flatMap_cons, List.flatMap_cons, List.append_assoc, List.append_assoc] at he
      obtain ⟨e1, e2⟩ := utf8_prefix (hr r (by simp)).1.1 (hs s (by simp)).1.1 he
      obtain ⟨e3, e4, e5⟩ := ih (fun r h => hr r (by simp [h])) (fun r h => hs r (by simp [h])) e2
      have cr : ∀ {r s : Nat}, s.isValidChar → utf8 r = utf8 s → r = 13 → s = 13 := by
        intro r s hv h h13
        obtain ⟨c, t, hc, hv⟩ := utf8_head hv
        have h0 : utf8 13 = [13] := by decide +kernel
        rw [h13, hc, h0] at h
        have := (List.cons.inj h).1
        subst this
        simp at hv
        omega
      have hcr : r = 13 ↔ s = 13 := ⟨cr (hs s (by simp)).1.1 e1, cr (hr r (by simp)).1.1 e1.symm⟩
      refine ⟨by rw [List.flatMap_cons, List.flatMap_cons, e1, e3], ?_, e5⟩
      rw [List.filter_cons, List.filter_cons]
      by_cases h : r = 13
      · rw [if_neg (by simpa using h), if_neg (by simpa using hcr.1 h), e4]
      · rw [if_pos (by simpa using h), if_pos (by simpa using mt hcr.2 h), List.flatMap_cons, List.flatMap_cons, e1, e4]

theorem characters_spec : ∀ (f : Nat) (s : Bytes), s.length ≤ f → Characters s (runeCountGo f s)
  | 0, s, h => by
    obtain rfl := List.length_eq_zero_iff.1 (Nat.le_zero.1 h)
    exact .nil
  | f + 1, [], _ => .nil
  | f + 1, a :: r, h => by
    rw [runeCountGo, Nat.add_comm]
    rcases decoded a r with ⟨b, t, hs, hb, hl, hr⟩ | ⟨t, hv, hs, hl, hlow⟩
    · rw [hl]
      refine .stray a r _ (fun x u hv hu => ?_) (characters_spec f r (by simpa using h))
      rw [← utf8_encode hv] at hu
      have h1 := (runeLen_encode (by unfold Nat.isValidChar at hv; unfold IsScalar; omega : IsScalar x) u).1
      rw [← hu, hl] at h1
      have hb := UInt8.le_iff_toNat_le.1 ((List.cons.inj hs).1 ▸ hb)
      have hx : x < 0x80 := by
        unfold encodeRune at h1
        split at h1
        · assumption
        split at h1
        · simp at h1
        split at h1
        · simp at h1
        split at h1 <;> simp at h1
      have he : encodeRune x = [UInt8.ofNat x] := by simp [encodeRune, hx]
      rw [he] at hu
      rw [(List.cons.inj hu).1, UInt8.toNat_ofNat'] at hb
      have : (0x80 : UInt8).toNat = 128 := rfl
      omega
    · have hd : List.drop (runeLen (a :: r)) (a :: r) = t := by
        have := congrArg (List.drop (encodeRune (runeAt (a :: r))).length) hs
        rw [List.drop_left] at this
        rwa [hl]
      have hp := encodeRune_pos (runeAt (a :: r))
      have ht : t.length ≤ f := by
        have := congrArg List.length hs
        rw [List.length_append] at this
        simp only [List.length_cons] at this h
        omega
      rw [hd]
      have := Characters.char (runeAt (a :: r)) t _ hv (characters_spec f t ht)
      rwa [← utf8_encode hv, ← hs] at this

theorem Spec.Characters.unique {s : Bytes} {m n : Nat} (h1 : Characters s m) (h2 : Characters s n) : m = n := by
  induction h1 generalizing n with
  | nil =>
    generalize hs : ([] : Bytes) = s at h2
    cases h2 with
    | nil => rfl
    | char r t n hr =>
      obtain ⟨c, u, hc, _⟩ := utf8_head hr
      rw [hc] at hs
      cases hs
    | stray => cases hs
  | char r t m hr _ ih =>
    generalize hs : utf8 r ++ t = s at h2
    cases h2 with
    | nil =>
      obtain ⟨c, u, hc, _⟩ := utf8_head hr
      rw [hc] at hs
      cases hs
    | char r' t' n hr' ht' =>
      obtain ⟨_, rfl⟩ := utf8_prefix hr hr' hs
      rw [ih ht']
    | stray c t' n hc => exact (hc r t hr hs.symm).elim
  | stray c t m hc _ ih =>
    generalize hs : c :: t = s at h2
    cases h2 with
    | nil => cases hs
    | char r' t' n hr' ht' => exact (hc r' t' hr' hs).elim
    | stray c' t' n hc' ht' =>
      cases hs
      rw [ih ht']

theorem characters_iff (s : Bytes) (n : Nat) : Characters s n ↔ n = runeCount s :=
  have h := characters_spec s.length s (Nat.le_refl _)
  ⟨fun h' => h'.unique h, fun h' => h' ▸ h⟩

/-- A literal at the beginning of a text is found there in one way only. -/
theorem Spec.GoLiteral.prefix {a v b w x y : Bytes} (h1 : GoLiteral a v) (h2 : GoLiteral b w) (he : a ++ x = b ++ y) :
    a = b ∧ v = w ∧ x = y := by
  cases h1 with
  | raw rs hr =>
    cases h2 with
    | raw ss hs =>
      simp only [List.cons_append, List.append_assoc, List.nil_append, List.cons.injEq, true_and] at he
      obtain ⟨e1, e2, e3⟩ := raw_prefix hr hs he
      exact ⟨by rw [e1], e2, e3⟩
    | interpreted => simp at he
  | interpreted t v ht =>
    cases h2 with
    | raw => simp at he
    | interpreted t' v' ht' =>
      simp only [List.cons_append, List.append_assoc, List.nil_append, List.cons.injEq, true_and] at he
      obtain ⟨rfl, rfl, rfl⟩ := ht.prefix ht' he
      exact ⟨rfl, rfl, rfl⟩

end JP
