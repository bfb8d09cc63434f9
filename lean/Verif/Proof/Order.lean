import Verif.Model.Order
/-! Lemmas about the packing of program words. -/
namespace JP

theorem Op.toNat_lt (op : Op) : op.toNat < 48 := by cases op <;> decide

theorem Op.ofNat?_toNat (op : Op) : Op.ofNat? op.toNat = some op := by cases op <;> rfl

theorem Op.ofNat?_eq_some {n : Nat} {op : Op} (h : Op.ofNat? n = some op) : op.toNat = n := by
  unfold Op.ofNat? at h
  have hn : n < 48 := by
    have := (List.getElem?_eq_some_iff.mp h).1
    simpa [Op.all] using this
  have : ∀ m < 48, ∀ o, Op.all[m]? = some o → o.toNat = m := by decide
  exact this n hn op h

theorem mkOrder_toNat (op : Op) (i : UInt32) (hi : i.toNat < 2 ^ 23) :
    (mkOrder op i).toNat = op.toNat + i.toNat * 512 := by
  have h1 := op.toNat_lt
  unfold mkOrder
  have ha : UInt32.toNat (UInt32.ofNat op.toNat &&& 255) = op.toNat := by
    rw [UInt32.toNat_and]
    have : (UInt32.ofNat op.toNat).toNat = op.toNat := by simp; omega
    rw [this]
    show op.toNat &&& (2 ^ 8 - 1) = _
    rw [Nat.and_two_pow_sub_one_eq_mod]; omega
  rw [UInt32.toNat_or, ha, UInt32.toNat_shiftLeft]
  have : (i.toNat <<< ((9 : UInt32).toNat % 32)) % 2 ^ 32 = i.toNat <<< 9 := by
    show (i.toNat <<< 9) % 2 ^ 32 = _
    rw [Nat.shiftLeft_eq]; omega
  rw [this, Nat.or_comm, ← Nat.shiftLeft_add_eq_or_of_lt (by omega), Nat.shiftLeft_eq]
  omega

theorem mkOrder_opNum (op : Op) (i : UInt32) (hi : i.toNat < 2 ^ 23) :
    (mkOrder op i).opNum = op.toNat := by
  unfold Order.opNum
  rw [UInt32.toNat_and, mkOrder_toNat op i hi]
  show (_ &&& (2 ^ 8 - 1)) = _
  rw [Nat.and_two_pow_sub_one_eq_mod]
  have := op.toNat_lt
  omega

theorem flag_toNat (o : Order) : (o &&& 0x100).toNat = o.toNat / 256 % 2 * 256 := by
  rw [UInt32.toNat_and]
  apply Nat.eq_of_testBit_eq
  intro i
  rw [Nat.testBit_and]
  have h256 : (256 : Nat).testBit i = decide (i = 8) := by
    show (2 ^ 8 : Nat).testBit i = _
    rw [Nat.testBit_two_pow]; simp [eq_comm]
  have : (UInt32.toNat 0x100) = 256 := rfl
  rw [this, h256]
  have hr : (o.toNat / 256 % 2 * 256).testBit i = (decide (8 ≤ i) && (o.toNat / 256 % 2).testBit (i - 8)) := by
    rw [show (256 : Nat) = 2 ^ 8 from rfl, ← Nat.shiftLeft_eq, Nat.testBit_shiftLeft]
  rw [hr]
  by_cases h : i = 8
  · subst h
    simp [Nat.testBit]
    rw [Nat.shiftRight_eq_div_pow]
  · by_cases h8 : 8 ≤ i
    · have : (o.toNat / 256 % 2).testBit (i - 8) = false := by
        apply Nat.testBit_lt_two_pow
        have : 2 ^ 1 ≤ 2 ^ (i - 8) := Nat.pow_le_pow_right (by omega) (by omega)
        omega
      simp [h, this]
    · simp [h, h8]

theorem isSmallInt_eq (o : Order) : o.isSmallInt = decide (o.toNat / 256 % 2 = 1) := by
  unfold Order.isSmallInt
  have h := flag_toNat o
  by_cases h1 : o.toNat / 256 % 2 = 1
  · have : (o &&& 0x100) ≠ 0 := by
      intro h0; rw [h0] at h; simp [h1] at h
    simp [this, h1]
  · have h0 : o.toNat / 256 % 2 = 0 := by omega
    have : (o &&& 0x100) = 0 := by
      apply UInt32.toNat_inj.mp; rw [h, h0]; rfl
    simp [this, h0]

theorem mkOrder_isSmallInt (op : Op) (i : UInt32) (hi : i.toNat < 2 ^ 23) :
    (mkOrder op i).isSmallInt = false := by
  rw [isSmallInt_eq, mkOrder_toNat op i hi]
  have := op.toNat_lt
  simp; omega

theorem mkOrder_index (op : Op) (i : UInt32) (hi : i.toNat < 2 ^ 23) :
    (mkOrder op i).index = some i := by
  have h := mkOrder_isSmallInt op i hi
  unfold Order.isSmallInt at h
  unfold Order.index
  rw [h]
  simp only [Bool.false_eq_true, if_false, Option.some.injEq]
  apply UInt32.toNat_inj.mp
  rw [UInt32.toNat_shiftRight, mkOrder_toNat op i hi]
  show (_ >>> 9) = _
  rw [Nat.shiftRight_eq_div_pow]
  have := op.toNat_lt
  omega

theorem small_toNat (v : Int64) :
    (((v &&& 0x7FFFFF) <<< 9).toUInt64.toUInt32).toNat = (v.toInt % 2 ^ 23).toNat * 512 := by
  have hv : (v.toInt % 2 ^ 23).toNat = v.toBitVec.toNat % 2 ^ 23 := by
    rw [← Int64.toInt_toBitVec, BitVec.toInt_eq_toNat_cond]
    have := v.toBitVec.isLt
    split <;> omega
  rw [hv]
  have h2 : ((v &&& 0x7FFFFF) <<< 9).toBitVec.toNat = (v.toBitVec.toNat % 2 ^ 23) * 512 := by
    rw [Int64.toBitVec_shiftLeft, Int64.toBitVec_and]
    have h9 : BitVec.smod (Int64.toBitVec 9) 64 = 9#64 := by decide
    have hm : Int64.toBitVec 0x7FFFFF = 0x7FFFFF#64 := by decide
    rw [h9, hm, BitVec.shiftLeft_eq', BitVec.toNat_shiftLeft, BitVec.toNat_and]
    have : (0x7FFFFF#64).toNat = 2 ^ 23 - 1 := by decide
    have h9' : (9#64).toNat = 9 := by decide
    rw [this, h9', Nat.and_two_pow_sub_one_eq_mod, Nat.shiftLeft_eq]
    omega
  rw [UInt64.toNat_toUInt32]
  show ((v &&& 0x7FFFFF) <<< 9).toBitVec.toNat % 2 ^ 32 = _
  rw [h2]
  omega

theorem mkSmall_toNat (op : Op) (v : Int64) :
    (mkSmall op v).toNat = op.toNat + 256 + (v.toInt % 2 ^ 23).toNat * 512 := by
  have h1 := op.toNat_lt
  unfold mkSmall
  have ha : UInt32.toNat (UInt32.ofNat op.toNat &&& 255) = op.toNat := by
    rw [UInt32.toNat_and]
    have : (UInt32.ofNat op.toNat).toNat = op.toNat := by simp; omega
    rw [this]
    show op.toNat &&& (2 ^ 8 - 1) = _
    rw [Nat.and_two_pow_sub_one_eq_mod]; omega
  rw [UInt32.toNat_or, UInt32.toNat_or, ha, small_toNat]
  have hc : UInt32.toNat 0x100 = 1 <<< 8 := rfl
  rw [Nat.or_comm, hc, ← Nat.or_assoc]
  generalize hm : (v.toInt % 2 ^ 23).toNat = m
  have : m * 512 = m <<< 9 := by rw [Nat.shiftLeft_eq]
  have h2 : (1 <<< 8 ||| op.toNat : Nat) = 256 + op.toNat := by
    rw [← Nat.shiftLeft_add_eq_or_of_lt (by omega)]; rfl
  rw [h2, this, Nat.or_comm, ← Nat.shiftLeft_add_eq_or_of_lt (by omega), Nat.shiftLeft_eq]
  clear h2 this hc ha hm
  generalize op.toNat = k
  omega

theorem mkSmall_opNum (op : Op) (v : Int64) : (mkSmall op v).opNum = op.toNat := by
  unfold Order.opNum
  rw [UInt32.toNat_and, mkSmall_toNat op v]
  show (_ &&& (2 ^ 8 - 1)) = _
  rw [Nat.and_two_pow_sub_one_eq_mod]
  have := op.toNat_lt
  omega

theorem mkSmall_isSmallInt (op : Op) (v : Int64) : (mkSmall op v).isSmallInt = true := by
  rw [isSmallInt_eq, mkSmall_toNat op v]
  have := op.toNat_lt
  simp; omega

theorem mkSmall_smallInt_toInt (op : Op) (v : Int64) :
    (mkSmall op v).smallInt.toInt = Int.bmod v.toInt (2 ^ 23) := by
  unfold Order.smallInt
  have hs : ∀ x : Int32, (x.toInt64).toInt = x.toInt := by simp
  rw [hs]
  have h : ∀ o : UInt32, (o.toInt32 >>> 9).toInt = o.toInt32.toInt / 512 := by
    intro o
    rw [← Int32.toInt_toBitVec, Int32.toBitVec_shiftRight]
    have h9 : BitVec.smod (Int32.toBitVec 9) 32 = 9#32 := by decide
    rw [h9, BitVec.sshiftRight_eq', BitVec.toInt_sshiftRight, Int.shiftRight_eq_div_pow]
    rfl
  rw [h]
  have ho : (mkSmall op v).toInt32.toInt = Int.bmod (mkSmall op v).toNat (2 ^ 32) := by
    rw [← Int32.toInt_toBitVec, BitVec.toInt_eq_toNat_bmod]; rfl
  rw [ho, mkSmall_toNat]
  have := op.toNat_lt
  rw [Int.bmod_def, Int.bmod_def]
  split <;> split <;> omega

theorem Int64.small_iff (v : Int64) : isSmallInt v = true ↔ -4194304 ≤ v.toInt ∧ v.toInt ≤ 4194303 := by
  unfold isSmallInt
  rw [Bool.and_eq_true, decide_eq_true_eq, decide_eq_true_eq, Int64.le_iff_toInt_le, Int64.le_iff_toInt_le]
  rfl

theorem mkSmall_smallInt (op : Op) (v : Int64) (h : isSmallInt v = true) :
    (mkSmall op v).smallInt = v := by
  apply Int64.toInt_inj.mp
  rw [mkSmall_smallInt_toInt, Int.bmod_def]
  have := (Int64.small_iff v).mp h
  split <;> omega

theorem mkSmall_pc (op : Op) (v : Int64) : (mkSmall op v).pc = some (mkSmall op v).smallInt := by
  have h := mkSmall_isSmallInt op v
  unfold Order.isSmallInt at h
  unfold Order.pc
  rw [if_neg]
  intro h0
  simp at h h0
  exact h h0

end JP
