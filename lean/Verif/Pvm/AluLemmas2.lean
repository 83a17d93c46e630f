import Verif.Pvm.AluLemmas
/-! Helper lemmas for the PVM's arithmetic: remainders, shifts and products. -/
namespace Fastroll.Pvm

theorem allOnes_toNat : (BitVec.allOnes 64).toNat = 2 ^ 64 - 1 := by decide

theorem shl_toNat (x : Reg) (n : Nat) : (x <<< n).toNat = x.toNat * 2 ^ n % 2 ^ 64 := by
  rw [BitVec.toNat_shiftLeft, Nat.shiftLeft_eq]

theorem shr_toNat (x : Reg) (n : Nat) : (x >>> n).toNat = x.toNat / 2 ^ n := by
  rw [BitVec.toNat_ushiftRight, Nat.shiftRight_eq_div_pow]

theorem isr_div (x : Int) (n : Nat) : x >>> n = x / 2 ^ n := by
  rw [Int.shiftRight_eq_div_pow]; simp

theorem mod64_mod32 (x : Nat) : x % 2 ^ 64 % 2 ^ 32 = x % 2 ^ 32 :=
  Nat.mod_mod_of_dvd x (by decide)

theorem div_bounds (x : Int) (n m : Nat) (h1 : -2 ^ m ≤ x) (h2 : x < 2 ^ m) :
    -2 ^ m ≤ x / 2 ^ n ∧ x / 2 ^ n < 2 ^ m := by
  have hp : (0 : Int) < 2 ^ n := Int.pow_pos (by omega)
  constructor
  · rw [Int.le_ediv_iff_mul_le hp]
    have : (0 : Int) ≤ 2 ^ m := Int.le_of_lt (Int.pow_pos (by omega))
    have h3 : -(2 : Int) ^ m * 2 ^ n ≤ -2 ^ m * 1 :=
      Int.mul_le_mul_of_nonpos_left (by omega) (by omega)
    omega
  · apply Int.ediv_lt_of_lt_mul hp
    have : (0 : Int) ≤ 2 ^ m := Int.le_of_lt (Int.pow_pos (by omega))
    have h3 : (2 : Int) ^ m * 1 ≤ 2 ^ m * 2 ^ n := Int.mul_le_mul_of_nonneg_left (by omega) this
    omega

theorem Zinv_nat (n : Nat) (h : n < 2 ^ 64) : Zinv n = n := by
  unfold Zinv; omega

theorem Zinv_Z (n : Nat) (h : n < 2 ^ 64) : Zinv (Z 64 n) = n := by
  unfold Zinv Z; split <;> omega

theorem Z_zero_iff (w a : Nat) (hw : 0 < w) (ha : a < 2 ^ w) : Z w a = 0 ↔ a = 0 := by
  unfold Z
  have hc : ((2 ^ w : Nat) : Int) = (2 : Int) ^ w := by simp
  have hp : 0 < 2 ^ (w - 1) := Nat.pow_pos (by omega)
  split
  · omega
  · constructor
    · intro h
      have : (a : Int) < 2 ^ w := by rw [← hc]; exact_mod_cast ha
      omega
    · intro h; omega

/-- `|a| mod |b|` with the sign of `a`, when the absolute value of the dividend is
representable. -/
theorem smod_eq (w : Nat) (a b : Int) (hw : 1 < w) (ha1 : -2 ^ (w - 1) < a) (ha2 : a < 2 ^ (w - 1))
    (hb1 : -2 ^ (w - 1) ≤ b) (hb2 : b < 2 ^ (w - 1)) : smod w a b = paperSmod a b := by
  unfold smod paperSmod
  split
  · rfl
  · rename_i hb
    have hA : asI w (a.natAbs : Int) = a.natAbs := asI_id w _ (by omega) (by omega) (by omega)
    have hT : (asI w (a.natAbs : Int)).tmod (asI w (b.natAbs : Int)) = ((a.natAbs % b.natAbs : Nat) : Int) := by
      rw [hA]
      by_cases hbm : b = -2 ^ (w - 1)
      · have hbn : (b.natAbs : Int) = 2 ^ (w - 1) := by omega
        have hneg : asI w (b.natAbs : Int) = -(b.natAbs : Int) := by
          unfold asI
          rw [BitVec.toInt_ofInt, hbn]
          have hp : (2 : Int) ^ w = 2 * 2 ^ (w - 1) := by
            conv => lhs; rw [show w = w - 1 + 1 by omega, Int.pow_succ]
            omega
          have hc : ((2 ^ w : Nat) : Int) = (2 : Int) ^ w := by simp
          have : (2 : Int) ^ (w - 1) = -2 ^ (w - 1) + ((2 ^ w : Nat) : Int) := by rw [hc, hp]; omega
          conv => lhs; rw [this]
          rw [Int.add_bmod_right]
          have hpos : (0 : Int) < 2 ^ (w - 1) := Int.pow_pos (by omega)
          apply Int.bmod_eq_of_le <;> rw [hc, hp] <;> omega
        rw [hneg, Int.tmod_neg, Int.tmod_eq_emod_of_nonneg (by omega)]
        rfl
      · rw [asI_id w (b.natAbs : Int) (by omega) (by omega) (by omega),
          Int.tmod_eq_emod_of_nonneg (by omega)]
        rfl
    rw [hT]
    have hlt : a.natAbs % b.natAbs ≤ a.natAbs := Nat.mod_le _ _
    generalize hr : a.natAbs % b.natAbs = r at hlt
    have h2 : (r : Int) ≤ a.natAbs := by exact_mod_cast hlt
    rcases Int.lt_trichotomy a 0 with h | h | h
    · rw [if_neg (by omega), Int.sign_eq_neg_one_of_neg h]
      exact asI_id w _ (by omega) (by omega) (by omega)
    · subst h
      have : r = 0 := by simpa using hlt
      subst this
      simp
      exact asI_id w 0 (by omega) (by omega) (by omega)
    · rw [if_pos h, Int.sign_eq_one_of_pos h]
      exact asI_id w _ (by omega) (by omega) (by omega)

/-- The dividend `-2^(w-1)`: the sign comes out wrong. -/
theorem smod_min (w : Nat) (b : Int) (hw : 1 < w) (hb0 : b ≠ 0)
    (hb1 : -2 ^ (w - 1) ≤ b) (hb2 : b < 2 ^ (w - 1)) :
    smod w (-2 ^ (w - 1)) b = - paperSmod (-2 ^ (w - 1)) b := by
  have hpos : (0 : Int) < 2 ^ (w - 1) := Int.pow_pos (by omega)
  have hminc : asI w (2 ^ (w - 1)) = -2 ^ (w - 1) := by
    unfold asI
    rw [BitVec.toInt_ofInt]
    have hp : (2 : Int) ^ w = 2 * 2 ^ (w - 1) := by
      conv => lhs; rw [show w = w - 1 + 1 by omega, Int.pow_succ]
      omega
    have hc : ((2 ^ w : Nat) : Int) = (2 : Int) ^ w := by simp
    have : (2 : Int) ^ (w - 1) = -2 ^ (w - 1) + ((2 ^ w : Nat) : Int) := by rw [hc, hp]; omega
    conv => lhs; rw [this]
    rw [Int.add_bmod_right]
    apply Int.bmod_eq_of_le <;> rw [hc, hp] <;> omega
  have hnat : (((-2 ^ (w - 1) : Int)).natAbs : Int) = 2 ^ (w - 1) := by omega
  have hnat' : ((-2 ^ (w - 1) : Int)).natAbs = 2 ^ (w - 1) := by
    rw [Int.natAbs_neg, Int.natAbs_pow]; rfl
  unfold smod paperSmod
  rw [if_neg hb0, if_neg hb0]
  dsimp only
  rw [hnat, hminc, hnat']
  rw [if_neg (by omega), Int.sign_eq_neg_one_of_neg (by omega)]
  have hT : (-2 ^ (w - 1) : Int).tmod (asI w (b.natAbs : Int)) = -((2 ^ (w - 1) % b.natAbs : Nat) : Int) := by
    have key : ∀ n : Nat, (-2 ^ (w - 1) : Int).tmod n = -((2 ^ (w - 1) % n : Nat) : Int) := by
      intro n
      rw [Int.neg_tmod, Int.tmod_eq_emod_of_nonneg (by omega)]
      simp
    by_cases hbm : b = -2 ^ (w - 1)
    · have hbn : (b.natAbs : Int) = 2 ^ (w - 1) := by omega
      have hneg : asI w (b.natAbs : Int) = -(b.natAbs : Int) := by rw [hbn, hminc]
      rw [hneg, Int.tmod_neg, key]
    · rw [asI_id w (b.natAbs : Int) (by omega) (by omega) (by omega), key]
  rw [hT]
  have hlt : 2 ^ (w - 1) % b.natAbs < b.natAbs := Nat.mod_lt _ (by omega)
  have hc : ((2 ^ (w - 1) : Nat) : Int) = (2 : Int) ^ (w - 1) := by simp
  generalize 2 ^ (w - 1) % b.natAbs = r at hlt ⊢
  rw [asI_id w _ (by omega) (by omega) (by omega)]
  omega

theorem rtz_bounds (a b : Int) (m : Nat) (ha1 : -2 ^ m ≤ a) (ha2 : a < 2 ^ m) :
    -2 ^ m ≤ a.tdiv b ∧ a.tdiv b ≤ 2 ^ m := by
  have h := Int.natAbs_tdiv_le_natAbs a b
  omega

theorem mul_upper_bounds (x y : Int) (hx1 : -2 ^ 63 ≤ x) (hx2 : x < 2 ^ 63) (hy1 : -2 ^ 63 ≤ y) (hy2 : y < 2 ^ 64) :
    -2 ^ 63 ≤ x * y / 2 ^ 64 ∧ x * y / 2 ^ 64 < 2 ^ 63 := by
  have habs : (x * y).natAbs ≤ 2 ^ 63 * (2 ^ 64 - 1) := by
    rw [Int.natAbs_mul]
    exact Nat.mul_le_mul (by omega) (by omega)
  omega

end Fastroll.Pvm
