import Verif.Model.Basic
/-! Counting the runes of encoded text. -/
namespace JP

/-- A Unicode scalar value. -/
def Spec.IsScalar (r : Nat) : Prop := r < 0xD800 ∨ (0xDFFF < r ∧ r ≤ 0x10FFFF)

instance (r : Nat) : Decidable (Spec.IsScalar r) := by unfold Spec.IsScalar; infer_instance

private theorem toNat_ofNat {n : Nat} (h : n < 256) : (UInt8.ofNat n).toNat = n := by
  rw [UInt8.toNat_ofNat']; omega

private theorem len1 {a : UInt8} (h : a.toNat < 0x80) (s : Bytes) : runeLen (a :: s) = 1 := by
  have : a < 0x80 := UInt8.lt_iff_toNat_lt.2 h
  simp [runeLen, this]

private theorem not_lt' {a b : UInt8} (h : b.toNat ≤ a.toNat) : ¬ a < b := by rw [UInt8.lt_iff_toNat_lt]; omega
private theorem not_le' {a b : UInt8} (h : b.toNat < a.toNat) : ¬ a ≤ b := by rw [UInt8.le_iff_toNat_le]; omega
private theorem cont {c : UInt8} (h : 0x80 ≤ c.toNat ∧ c.toNat ≤ 0xBF) : isCont c = true := by
  have h1 : (0x80 : UInt8) ≤ c := UInt8.le_iff_toNat_le.2 h.1
  have h2 : c ≤ (0xBF : UInt8) := UInt8.le_iff_toNat_le.2 h.2
  simp [isCont, h1, h2]

private theorem len2 {a b : UInt8} (h : 0xC2 ≤ a.toNat ∧ a.toNat ≤ 0xDF) (hb : 0x80 ≤ b.toNat ∧ b.toNat ≤ 0xBF) (s : Bytes) :
    runeLen (a :: b :: s) = 2 := by
  have h1 : ¬ a < 0x80 := not_lt' (by show 0x80 ≤ _; omega)
  have h2 : (0xC2 : UInt8) ≤ a := UInt8.le_iff_toNat_le.2 h.1
  have h3 : a ≤ (0xDF : UInt8) := UInt8.le_iff_toNat_le.2 h.2
  simp [runeLen, h1, h2, h3, cont hb]

private theorem len3 {a b c : UInt8} (h : 0xE0 ≤ a.toNat ∧ a.toNat ≤ 0xEF) (hb : 0x80 ≤ b.toNat ∧ b.toNat ≤ 0xBF)
    (hc : 0x80 ≤ c.toNat ∧ c.toNat ≤ 0xBF) (h0 : a.toNat = 0xE0 → 0xA0 ≤ b.toNat) (hd : a.toNat = 0xED → b.toNat ≤ 0x9F) (s : Bytes) :
    runeLen (a :: b :: c :: s) = 3 := by
  have h1 : ¬ a < 0x80 := not_lt' (by show 0x80 ≤ _; omega)
  have h2 : ¬ a ≤ 0xDF := not_le' (by show 0xDF < _; omega)
  have h3 : (0xE0 : UInt8) ≤ a := UInt8.le_iff_toNat_le.2 h.1
  have h4 : a ≤ (0xEF : UInt8) := UInt8.le_iff_toNat_le.2 h.2
  have b1 : (if a = 0xE0 then (0xA0 : UInt8) else 0x80) ≤ b := by
    split
    · rename_i he; exact UInt8.le_iff_toNat_le.2 (h0 (by rw [he]; rfl))
    · exact UInt8.le_iff_toNat_le.2 hb.1
  have b2 : b ≤ (if a = 0xED then (0x9F : UInt8) else 0xBF) := by
    split
    · rename_i he; exact UInt8.le_iff_toNat_le.2 (hd (by rw [he]; rfl))
    · exact UInt8.le_iff_toNat_le.2 hb.2
  simp [runeLen, h1, h2, h3, h4, b1, b2, cont hc]

private theorem len4 {a b c d : UInt8} (h : 0xF0 ≤ a.toNat ∧ a.toNat ≤ 0xF4) (hb : 0x80 ≤ b.toNat ∧ b.toNat ≤ 0xBF)
    (hc : 0x80 ≤ c.toNat ∧ c.toNat ≤ 0xBF) (hd : 0x80 ≤ d.toNat ∧ d.toNat ≤ 0xBF) (h0 : a.toNat = 0xF0 → 0x90 ≤ b.toNat)
    (h4 : a.toNat = 0xF4 → b.toNat ≤ 0x8F) (s : Bytes) : runeLen (a :: b :: c :: d :: s) = 4 := by
  have h1 : ¬ a < 0x80 := not_lt' (by show 0x80 ≤ _; omega)
  have h2 : ¬ a ≤ 0xDF := not_le' (by show 0xDF < _; omega)
  have h3 : ¬ a ≤ 0xEF := not_le' (by show 0xEF < _; omega)
  have h5 : (0xF0 : UInt8) ≤ a := UInt8.le_iff_toNat_le.2 h.1
  have h6 : a ≤ (0xF4 : UInt8) := UInt8.le_iff_toNat_le.2 h.2
  have b1 : (if a = 0xF0 then (0x90 : UInt8) else 0x80) ≤ b := by
    split
    · rename_i he; exact UInt8.le_iff_toNat_le.2 (h0 (by rw [he]; rfl))
    · exact UInt8.le_iff_toNat_le.2 hb.1
  have b2 : b ≤ (if a = 0xF4 then (0x8F : UInt8) else 0xBF) := by
    split
    · rename_i he; exact UInt8.le_iff_toNat_le.2 (h4 (by rw [he]; rfl))
    · exact UInt8.le_iff_toNat_le.2 hb.2
  simp [runeLen, h1, h2, h3, h5, h6, b1, b2, cont hc, cont hd]

theorem runeLen_encode {r : Nat} (h : Spec.IsScalar r) (s : Bytes) :
    runeLen (encodeRune r ++ s) = (encodeRune r).length ∧ encodeRune r ≠ [] := by
  unfold encodeRune
  unfold Spec.IsScalar at h
  by_cases h1 : r < 0x80
  · rw [if_pos h1]
    exact ⟨len1 (by rw [toNat_ofNat (by omega)]; omega) s, by simp⟩
  rw [if_neg h1]
  by_cases h2 : r < 0x800
  · rw [if_pos h2]
    refine ⟨len2 ?_ ?_ s, by simp⟩ <;> (rw [toNat_ofNat (by omega)]; omega)
  rw [if_neg h2, if_neg (by omega)]
  by_cases h3 : r < 0x10000
  · rw [if_pos h3]
    refine ⟨len3 ?_ ?_ ?_ ?_ ?_ s, by simp⟩ <;> (rw [toNat_ofNat (by omega)]; try rw [toNat_ofNat (by omega)]) <;> omega
  · rw [if_neg h3]
    refine ⟨len4 ?_ ?_ ?_ ?_ ?_ ?_ s, by simp⟩ <;> (rw [toNat_ofNat (by omega)]; try rw [toNat_ofNat (by omega)]) <;> omega

end JP
