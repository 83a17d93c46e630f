import Verif.Pvm.AluLemmas2
/-! # PVM arithmetic (C10) -/
namespace Fastroll.Pvm

/-- **C10.** Two-register instructions, for every operand. -/
theorem C10_two_reg (op : Op2) (a : Reg) : op.Spec a.toNat (op.eval a).toNat := by
  have hlo := lo32_toNat a
  have hlob : (lo32 a).toNat < 2 ^ 32 := by rw [hlo]; exact Nat.mod_lt _ (by decide)
  cases op with
  | moveReg => rfl
  | countSetBits64 =>
    show (BitVec.ofNat 64 _).toNat = _
    have hle : countOnes 64 a ≤ 64 := by
      unfold countOnes; simpa using List.countP_le_length (l := List.range 64) (p := fun i => a.getLsbD i)
    rw [BitVec.toNat_ofNat, Nat.mod_eq_of_lt (by omega), countOnes_spec]
  | countSetBits32 =>
    show (BitVec.ofNat 64 _).toNat = _
    have hle : countOnes 32 (lo32 a) ≤ 32 := by
      unfold countOnes; simpa using List.countP_le_length (l := List.range 32) (p := fun i => (lo32 a).getLsbD i)
    rw [BitVec.toNat_ofNat, Nat.mod_eq_of_lt (by omega), countOnes_spec, hlo]
    congr 1
    apply List.map_congr_left
    intro i hi
    rw [bit_testBit, bit_testBit, Nat.testBit_mod_two_pow]
    simp [List.mem_range.mp hi]
  | leadingZeroBits64 =>
    have h := leadingZeros_spec 64 a a.isLt
    show _ ≤ 64 ∧ _
    simp only [Op2.eval, BitVec.toNat_ofNat, Nat.mod_eq_of_lt (show leadingZeros 64 a < 2 ^ 64 by omega)]
    exact h
  | leadingZeroBits32 =>
    have h := leadingZeros_spec 32 (lo32 a) hlob
    show _ ≤ 32 ∧ _
    simp only [Op2.eval, BitVec.toNat_ofNat, Nat.mod_eq_of_lt (show leadingZeros 32 (lo32 a) < 2 ^ 64 by omega)]
    rw [hlo] at h
    exact h
  | trailingZeroBits64 =>
    have h := trailingZeros_spec 64 a
    show _ ≤ 64 ∧ _
    simp only [Op2.eval, BitVec.toNat_ofNat, Nat.mod_eq_of_lt (show trailingZeros 64 a < 2 ^ 64 by omega)]
    exact h
  | trailingZeroBits32 =>
    have h := trailingZeros_spec 32 (lo32 a)
    show _ ≤ 32 ∧ _
    simp only [Op2.eval, BitVec.toNat_ofNat, Nat.mod_eq_of_lt (show trailingZeros 32 (lo32 a) < 2 ^ 64 by omega)]
    rw [hlo] at h
    exact h
  | signExtend8 =>
    show (i64ToU64 _).toNat = _
    have hb := Z_bounds 8 (a.toNat % 2 ^ 8) (by omega) (Nat.mod_lt _ (by decide))
    rw [mask8, uToI_eq 8 _ (by omega) (Nat.mod_lt _ (by decide)), i64ToU64_toNat _ (by omega)]
  | signExtend16 =>
    show (i64ToU64 _).toNat = _
    have hb := Z_bounds 16 (a.toNat % 2 ^ 16) (by omega) (Nat.mod_lt _ (by decide))
    rw [mask16, uToI_eq 16 _ (by omega) (Nat.mod_lt _ (by decide)), i64ToU64_toNat _ (by omega)]
  | zeroExtend16 => exact mask16 a
  | reverseBytes => exact ⟨(swapBytes a).isLt, swapBytes_spec a⟩

example : (Op2.leadingZeroBits32.eval 0xFFFFFFFF00010000#64) = 15#64 := by decide

theorem sar32 (x y : Reg) :
    (i64ToU64 (uToI 32 (lo32 x).toNat >>> (y &&& 0x1F#64).toNat)).toNat
      = Zinv (Z 32 (x.toNat % 2 ^ 32) / 2 ^ (y.toNat % 32)) := by
  have hb := Z_bounds 32 (x.toNat % 2 ^ 32) (by omega) (Nat.mod_lt _ (by decide))
  have hd := div_bounds (Z 32 (x.toNat % 2 ^ 32)) (y.toNat % 32) 31 hb.1 hb.2
  rw [lo32_toNat, mask5, uToI_eq 32 _ (by omega) (Nat.mod_lt _ (by decide)), isr_div, i64ToU64_toNat _ (by omega)]

theorem sar64 (x y : Reg) :
    (i64ToU64 (uToI 64 x.toNat >>> (y &&& 0x3F#64).toNat)).toNat
      = Zinv (Z 64 x.toNat / 2 ^ (y.toNat % 64)) := by
  have hb := Z_bounds 64 x.toNat (by omega) x.isLt
  have hd := div_bounds (Z 64 x.toNat) (y.toNat % 64) 63 hb.1 hb.2
  rw [mask6, uToI_eq 64 _ (by omega) x.isLt, isr_div, i64ToU64_toNat _ (by omega)]

theorem shl32 (x y : Reg) :
    (sext 4 (lo32 (x <<< (y &&& 0x1F#64).toNat)).toNat).toNat = X4 (x.toNat * 2 ^ (y.toNat % 32) % 2 ^ 32) := by
  rw [lo32_toNat, mask5, shl_toNat, mod64_mod32, X4_sext _ (Nat.mod_lt _ (by decide))]

theorem shr32 (x y : Reg) :
    (sext 4 (lo32 x >>> (y &&& 0x1F#64).toNat).toNat).toNat = X4 (x.toNat % 2 ^ 32 / 2 ^ (y.toNat % 32)) := by
  rw [shr_toNat, lo32_toNat, mask5, X4_sext]
  exact Nat.lt_of_le_of_lt (Nat.div_le_self _ _) (Nat.mod_lt _ (by decide))

theorem ite01 (p : Prop) [Decidable p] : ((if p then 1 else 0 : Reg)).toNat = if p then 1 else 0 := by
  split <;> rfl

theorem sub64 (x y : Reg) : (x - y).toNat = Zinv ((x.toNat : Int) - y.toNat) := by
  unfold Zinv
  rw [BitVec.toNat_sub]
  have := x.isLt; have := y.isLt
  omega

/-- **C10.** Instructions with an immediate, for every operand, immediate and old
destination. -/
theorem C10_two_reg_imm (op : OpImm) (d b i : Reg) :
    (op.eval d b i).toNat = op.spec d.toNat b.toNat i.toNat := by
  have hZb := uToI_eq 64 b.toNat (by omega) b.isLt
  have hZi := uToI_eq 64 i.toNat (by omega) i.isLt
  cases op <;> simp only [OpImm.eval, OpImm.spec]
  case addImm32 => rw [lo32_toNat, BitVec.toNat_add, mod64_mod32, X4_sext _ (Nat.mod_lt _ (by decide))]
  case andImm => exact and_spec b i
  case xorImm => exact xor_spec b i
  case orImm => exact or_spec b i
  case mulImm32 => rw [lo32_toNat, BitVec.toNat_mul, mod64_mod32, X4_sext _ (Nat.mod_lt _ (by decide))]
  case setLtUImm => exact ite01 _
  case setLtSImm => rw [hZb, hZi]; exact ite01 _
  case shloLImm32 => exact shl32 b i
  case shloRImm32 => exact shr32 b i
  case sharRImm32 => exact sar32 b i
  case negAddImm32 =>
    rw [lo32_toNat, X4_sext _ (Nat.mod_lt _ (by decide)), BitVec.toNat_sub, BitVec.toNat_add]
    have : (1#64 <<< 32).toNat = 2 ^ 32 := by decide
    rw [this]
    refine congrArg X4 ?_
    have := b.isLt
    omega
  case setGtUImm => exact ite01 _
  case setGtSImm => rw [hZb, hZi]; exact ite01 _
  case shloLImmAlt32 => exact shl32 i b
  case shloRImmAlt32 => exact shr32 i b
  case sharRImmAlt32 => exact sar32 i b
  case cmovIzImm =>
    by_cases h : b = 0
    · subst h; simp
    · have h' : b.toNat ≠ 0 := fun e => h (BitVec.eq_of_toNat_eq (by simpa using e))
      rw [if_neg h, if_neg h']
  case cmovNzImm =>
    by_cases h : b = 0
    · subst h; simp
    · have h' : b.toNat ≠ 0 := fun e => h (BitVec.eq_of_toNat_eq (by simpa using e))
      rw [if_pos h, if_neg h']
  case addImm64 => exact BitVec.toNat_add b i
  case mulImm64 => exact BitVec.toNat_mul b i
  case shloLImm64 => rw [sext8 _ (BitVec.isLt _), shl_toNat, mask6]
  case shloRImm64 => rw [sext8 _ (BitVec.isLt _), shr_toNat, mask6]
  case sharRImm64 => exact sar64 b i
  case negAddImm64 => exact sub64 i b
  case shloLImmAlt64 => rw [shl_toNat, mask6]
  case shloRImmAlt64 => rw [shr_toNat, mask6]
  case sharRImmAlt64 => exact sar64 i b
  case rotR64Imm => exact rotr64_spec b _
  case rotR64ImmAlt => exact rotr64_spec i _
  case rotR32Imm => rw [X4_sext _ (BitVec.isLt _), rotr32_spec]
  case rotR32ImmAlt => rw [X4_sext _ (BitVec.isLt _), rotr32_spec]

example : (OpImm.negAddImm32.eval 0 5#64 3#64) = 0xFFFFFFFFFFFFFFFE#64 := by decide

/-- The operands on which a signed remainder goes wrong: the most negative dividend and a
divisor that does not divide it. -/
def BadRem (op : Op3) (a b : Reg) : Prop :=
  (op = .remS32 ∧ Z 32 (a.toNat % 2 ^ 32) = -2 ^ 31 ∧ Z 32 (b.toNat % 2 ^ 32) ≠ 0 ∧
    ¬ (Z 32 (b.toNat % 2 ^ 32)).natAbs ∣ 2 ^ 31) ∨
  (op = .remS64 ∧ Z 64 a.toNat = -2 ^ 63 ∧ Z 64 b.toNat ≠ 0 ∧ ¬ (Z 64 b.toNat).natAbs ∣ 2 ^ 63)

theorem paperSmod_min_dvd (m : Nat) (b : Int) (hb : b ≠ 0) (h : b.natAbs ∣ 2 ^ m) :
    paperSmod (-2 ^ m) b = 0 := by
  unfold paperSmod
  rw [if_neg hb, Int.natAbs_neg, Int.natAbs_pow, show (2 : Int).natAbs = 2 from rfl, Nat.mod_eq_zero_of_dvd h]
  simp

theorem paperSmod_bounds (a b : Int) (m : Nat) (ha1 : -2 ^ m ≤ a) (ha2 : a < 2 ^ m) :
    -2 ^ m ≤ paperSmod a b ∧ paperSmod a b < 2 ^ m := by
  unfold paperSmod
  split
  · exact ⟨ha1, ha2⟩
  · have hlt : a.natAbs % b.natAbs ≤ a.natAbs := Nat.mod_le _ _
    generalize a.natAbs % b.natAbs = r at hlt
    rcases Int.lt_trichotomy a 0 with h | h | h
    · rw [Int.sign_eq_neg_one_of_neg h]; omega
    · subst h; simp; omega
    · rw [Int.sign_eq_one_of_pos h]; omega

/-- **C10 (partial).** Three-register instructions, for every operand except the exact set
`BadRem` on which the code's signed remainder is wrong (next theorem). -/
theorem C10_three_reg_partial (op : Op3) (d a b : Reg) (hbad : ¬ BadRem op a b) :
    (op.eval d a b).toNat = op.spec d.toNat a.toNat b.toNat := by
  have hZa := uToI_eq 64 a.toNat (by omega) a.isLt
  have hZb := uToI_eq 64 b.toNat (by omega) b.isLt
  have hba := Z_bounds 64 a.toNat (by omega) a.isLt
  have hbb := Z_bounds 64 b.toNat (by omega) b.isLt
  have hla : (lo32 a).toNat = a.toNat % 2 ^ 32 := lo32_toNat a
  have hlb : (lo32 b).toNat = b.toNat % 2 ^ 32 := lo32_toNat b
  have ha32 : a.toNat % 2 ^ 32 < 2 ^ 32 := Nat.mod_lt _ (by decide)
  have hb32 : b.toNat % 2 ^ 32 < 2 ^ 32 := Nat.mod_lt _ (by decide)
  have hza := uToI_eq 32 _ (by omega) ha32
  have hzb := uToI_eq 32 _ (by omega) hb32
  have hca := Z_bounds 32 _ (by omega) ha32
  have hcb := Z_bounds 32 _ (by omega) hb32
  have hz32 : lo32 b = 0 ↔ b.toNat % 2 ^ 32 = 0 := by
    rw [← hlb]; exact ⟨fun h => by rw [h]; rfl, fun h => BitVec.eq_of_toNat_eq h⟩
  have hz64 : b = 0 ↔ b.toNat = 0 := ⟨fun h => by rw [h]; rfl, fun h => BitVec.eq_of_toNat_eq h⟩
  cases op <;> simp only [Op3.eval, Op3.spec]
  case add32 => rw [lo32_toNat, BitVec.toNat_add, mod64_mod32, X4_sext _ (Nat.mod_lt _ (by decide))]
  case sub32 =>
    rw [lo32_toNat, X4_sext _ (Nat.mod_lt _ (by decide)), BitVec.toNat_sub, BitVec.toNat_add, hlb]
    have : (1#64 <<< 32).toNat = 2 ^ 32 := by decide
    rw [this]
    refine congrArg X4 ?_
    omega
  case mul32 => rw [lo32_toNat, BitVec.toNat_mul, mod64_mod32, X4_sext _ (Nat.mod_lt _ (by decide))]
  case divU32 =>
    simp only [hz32]
    split
    · exact allOnes_toNat
    · rw [hla, hlb, X4_sext _ (Nat.lt_of_le_of_lt (Nat.div_le_self _ _) ha32)]
  case divS32 =>
    rw [hla, hlb, hza, hzb]
    split
    · exact allOnes_toNat
    · split
      · rw [i64ToU64_toNat _ (by omega)]
      · have := rtz_bounds (Z 32 (a.toNat % 2 ^ 32)) (Z 32 (b.toNat % 2 ^ 32)) 31 hca.1 hca.2
        rw [i64ToU64_toNat _ (by omega), tdiv_rtz]
  case remU32 =>
    simp only [hz32]
    split
    · rw [hla, X4_sext _ ha32]
    · rw [hla, hlb, X4_sext _ (Nat.lt_of_le_of_lt (Nat.mod_le _ _) ha32)]
  case remS32 =>
    rw [hla, hlb, hza, hzb]
    split
    · rfl
    · have hpb := paperSmod_bounds (Z 32 (a.toNat % 2 ^ 32)) (Z 32 (b.toNat % 2 ^ 32)) 31 hca.1 hca.2
      have hs : smod 32 (Z 32 (a.toNat % 2 ^ 32)) (Z 32 (b.toNat % 2 ^ 32))
          = paperSmod (Z 32 (a.toNat % 2 ^ 32)) (Z 32 (b.toNat % 2 ^ 32)) := by
        by_cases hm : Z 32 (a.toNat % 2 ^ 32) = -2 ^ 31
        · by_cases hb0 : Z 32 (b.toNat % 2 ^ 32) = 0
          · unfold smod paperSmod; rw [if_pos hb0, if_pos hb0]
          · have hdvd : (Z 32 (b.toNat % 2 ^ 32)).natAbs ∣ 2 ^ 31 :=
              Decidable.byContradiction fun h => hbad (Or.inl ⟨rfl, hm, hb0, h⟩)
            rw [hm, paperSmod_min_dvd 31 _ hb0 hdvd]
            have := smod_min 32 (Z 32 (b.toNat % 2 ^ 32)) (by omega) hb0 hcb.1 hcb.2
            rw [show 32 - 1 = 31 from rfl, paperSmod_min_dvd 31 _ hb0 hdvd] at this
            exact this
        · exact smod_eq 32 _ _ (by omega) (by omega) hca.2 hcb.1 hcb.2
      rw [hs, i64ToU64_toNat _ (by omega)]
  case shloL32 => exact shl32 a b
  case shloR32 => exact shr32 a b
  case sharR32 => exact sar32 a b
  case add64 => exact BitVec.toNat_add a b
  case sub64 => exact sub64 a b
  case mul64 => exact BitVec.toNat_mul a b
  case divU64 =>
    simp only [hz64]
    split
    · exact allOnes_toNat
    · rw [BitVec.toNat_ofNat, Nat.mod_eq_of_lt (Nat.lt_of_le_of_lt (Nat.div_le_self _ _) a.isLt)]
  case divS64 =>
    rw [hZa, hZb]
    simp only [Z_zero_iff 64 b.toNat (by omega) b.isLt]
    split
    · exact allOnes_toNat
    · split
      · rfl
      · have := rtz_bounds (Z 64 a.toNat) (Z 64 b.toNat) 63 hba.1 hba.2
        rw [i64ToU64_toNat _ (by omega), tdiv_rtz]
  case remU64 =>
    simp only [hz64]
    split
    · rfl
    · rw [BitVec.toNat_ofNat, Nat.mod_eq_of_lt (Nat.lt_of_le_of_lt (Nat.mod_le _ _) a.isLt)]
  case remS64 =>
    rw [hZa, hZb]
    split
    · rfl
    · have hpb := paperSmod_bounds (Z 64 a.toNat) (Z 64 b.toNat) 63 hba.1 hba.2
      have hs : smod 64 (Z 64 a.toNat) (Z 64 b.toNat) = paperSmod (Z 64 a.toNat) (Z 64 b.toNat) := by
        by_cases hm : Z 64 a.toNat = -2 ^ 63
        · by_cases hb0 : Z 64 b.toNat = 0
          · unfold smod paperSmod; rw [if_pos hb0, if_pos hb0]
          · have hdvd : (Z 64 b.toNat).natAbs ∣ 2 ^ 63 :=
              Decidable.byContradiction fun h => hbad (Or.inr ⟨rfl, hm, hb0, h⟩)
            rw [hm, paperSmod_min_dvd 63 _ hb0 hdvd]
            have := smod_min 64 (Z 64 b.toNat) (by omega) hb0 hbb.1 hbb.2
            rw [show 64 - 1 = 63 from rfl, paperSmod_min_dvd 63 _ hb0 hdvd] at this
            exact this
        · exact smod_eq 64 _ _ (by omega) (by omega) hba.2 hbb.1 hbb.2
      rw [hs, i64ToU64_toNat _ (by omega)]
  case shloL64 => rw [shl_toNat, mask6]
  case shloR64 => rw [shr_toNat, mask6]
  case sharR64 => exact sar64 a b
  case and => exact and_spec a b
  case xor => exact xor_spec a b
  case or => exact or_spec a b
  case mulUpperSS =>
    have := mul_upper_bounds (Z 64 a.toNat) (Z 64 b.toNat) hba.1 hba.2 hbb.1 (by omega)
    rw [hZa, hZb, isr_div, asI_id 64 _ (by omega) this.1 this.2, i64ToU64_toNat _ (by omega)]
  case mulUpperUU =>
    rw [Nat.shiftRight_eq_div_pow, BitVec.toNat_ofNat, Nat.mod_eq_of_lt]
    have : a.toNat * b.toNat < 2 ^ 64 * 2 ^ 64 := Nat.mul_lt_mul'' a.isLt b.isLt
    exact Nat.div_lt_of_lt_mul this
  case mulUpperSU =>
    have hbl := b.isLt
    have := mul_upper_bounds (Z 64 a.toNat) b.toNat hba.1 hba.2 (by omega) (by omega)
    rw [hZa, isr_div, asI_id 64 _ (by omega) this.1 this.2, i64ToU64_toNat _ (by omega)]
  case setLtU => exact ite01 _
  case setLtS => rw [hZa, hZb]; exact ite01 _
  case cmovIz => simp only [hz64, apply_ite BitVec.toNat]
  case cmovNz => simp only [ne_eq, hz64, ite_not, apply_ite BitVec.toNat]
  case rotL64 => exact rotl64_spec a _
  case rotL32 => rw [X4_sext _ (BitVec.isLt _), rotl32_spec]
  case rotR64 => exact rotr64_spec a _
  case rotR32 => rw [X4_sext _ (BitVec.isLt _), rotr32_spec]
  case andInv => exact andInv_spec a b
  case orInv => exact orInv_spec a b
  case xnor => exact xnor_spec a b
  case max => rw [hZa, hZb, i64ToU64_toNat _ (by omega)]
  case maxU => have := a.isLt; have := b.isLt; rw [BitVec.toNat_ofNat, Nat.mod_eq_of_lt (by omega)]
  case min => rw [hZa, hZb, i64ToU64_toNat _ (by omega)]
  case minU => have := a.isLt; have := b.isLt; rw [BitVec.toNat_ofNat, Nat.mod_eq_of_lt (by omega)]

-- the overflow case and division by zero are covered by the theorem
example : Op3.divS32.eval 0 0x80000000#64 0xFFFFFFFF#64 = 0xFFFFFFFF80000000#64 := by decide
example : ¬ BadRem .remS64 0x8000000000000000#64 4#64 := by
  rintro (⟨h, -⟩ | ⟨-, -, -, h⟩)
  · cases h
  · exact h (by decide)

theorem Zinv_neg_ne (r : Int) (h0 : r ≠ 0) (h1 : -2 ^ 63 < r) (h2 : r < 2 ^ 63) : Zinv (-r) ≠ Zinv r := by
  unfold Zinv; omega

theorem paperSmod_min_bounds (m : Nat) (b : Int) (hb : b ≠ 0) (hl : b.natAbs ≤ 2 ^ m)
    (h : ¬ b.natAbs ∣ 2 ^ m) : paperSmod (-2 ^ m) b ≠ 0 ∧ -2 ^ m < paperSmod (-2 ^ m) b ∧ paperSmod (-2 ^ m) b < 2 ^ m := by
  have hpos : (0 : Int) < 2 ^ m := Int.pow_pos (by omega)
  unfold paperSmod
  rw [if_neg hb, Int.natAbs_neg, Int.natAbs_pow, show (2 : Int).natAbs = 2 from rfl,
    Int.sign_eq_neg_one_of_neg (by omega)]
  have h0 : 2 ^ m % b.natAbs ≠ 0 := fun e => h (Nat.dvd_of_mod_eq_zero e)
  have hlt : 2 ^ m % b.natAbs < 2 ^ m := Nat.lt_of_lt_of_le (Nat.mod_lt _ (by omega)) hl
  have hc : ((2 ^ m : Nat) : Int) = (2 : Int) ^ m := by simp
  generalize 2 ^ m % b.natAbs = r at h0 hlt
  omega

/-- **C10, violated.** On every operand pair in `BadRem` the signed remainder has the wrong
sign, so the exclusion above is exact. -/
theorem C10_signed_rem_wrong (op : Op3) (d a b : Reg) (hbad : BadRem op a b) :
    (op.eval d a b).toNat ≠ op.spec d.toNat a.toNat b.toNat := by
  rcases hbad with ⟨rfl, hm, hb0, hd⟩ | ⟨rfl, hm, hb0, hd⟩
  · simp only [Op3.eval, Op3.spec]
    have ha32 : a.toNat % 2 ^ 32 < 2 ^ 32 := Nat.mod_lt _ (by decide)
    have hb32 : b.toNat % 2 ^ 32 < 2 ^ 32 := Nat.mod_lt _ (by decide)
    have hcb := Z_bounds 32 _ (by omega) hb32
    rw [lo32_toNat, lo32_toNat, uToI_eq 32 _ (by omega) ha32, uToI_eq 32 _ (by omega) hb32, hm]
    have hn1 : Z 32 (b.toNat % 2 ^ 32) ≠ -1 := fun e => hd (by rw [e]; decide)
    have hs := smod_min 32 _ (by omega) hb0 hcb.1 hcb.2
    have hl := paperSmod_min_bounds 31 _ hb0 (by omega) hd
    rw [if_neg (fun h => hn1 h.2), if_neg (fun h => hn1 h.2), hs, show 32 - 1 = 31 from rfl, i64ToU64_toNat _ (by omega)]
    exact Zinv_neg_ne _ hl.1 (by omega) (by omega)
  · simp only [Op3.eval, Op3.spec]
    have hcb := Z_bounds 64 b.toNat (by omega) b.isLt
    rw [uToI_eq 64 _ (by omega) a.isLt, uToI_eq 64 _ (by omega) b.isLt, hm]
    have hn1 : Z 64 b.toNat ≠ -1 := fun e => hd (by rw [e]; decide)
    have hs := smod_min 64 _ (by omega) hb0 hcb.1 hcb.2
    have hl := paperSmod_min_bounds 63 _ hb0 (by omega) hd
    rw [if_neg (fun h => hn1 h.2), if_neg (fun h => hn1 h.2), hs, show 64 - 1 = 63 from rfl, i64ToU64_toNat _ (by omega)]
    exact Zinv_neg_ne _ hl.1 (by omega) (by omega)

-- rem_s_32 of -2^31 by 3 gives +2 (it should be -2)
example : Op3.remS32.eval 0 0x80000000#64 3#64 = 2#64 ∧
    Op3.remS32.spec 0 0x80000000 3 = 2 ^ 64 - 2 := by decide

end Fastroll.Pvm
