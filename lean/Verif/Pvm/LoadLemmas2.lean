import Verif.Pvm.LoadLemmas
import Verif.Pvm.LoadSpec
namespace Fastroll.Pvm

/-- The instruction format of each opcode byte. -/
def byteLayout (b : Nat) : Layout :=
  if b = 20 then .regImm64
  else if 30 ≤ b ∧ b ≤ 33 then .imm2
  else if 50 ≤ b ∧ b ≤ 62 then .regImm
  else if 70 ≤ b ∧ b ≤ 73 then .regImm2
  else if 80 ≤ b ∧ b ≤ 90 then .regImmOffset
  else if 100 ≤ b ∧ b ≤ 111 then .reg2
  else if 120 ≤ b ∧ b ≤ 161 then .reg2Imm
  else if 170 ≤ b ∧ b ≤ 175 then .reg2Offset
  else if b = 180 then .reg2Imm2
  else if 190 ≤ b ∧ b ≤ 230 then .reg3
  else if b = 10 then .imm
  else if b = 40 then .offset
  else .none

set_option maxRecDepth 100000 in
theorem layout_byte : ∀ b : Fin 256, (Op.ofByte b.1).layout = byteLayout b.1 := by decide

theorem operandBytes_eq (b0 b1 b2 : Nat) (h : b0 < 256) : operandBytes b0 b1 b2 = operandsNeeded b0 b1 b2 := by
  have L := layout_byte ⟨b0, h⟩
  unfold byteLayout at L
  simp only at L
  unfold operandBytes operandsNeeded
  by_cases c0 : b0 = 20
  · rw [if_pos c0] at L ⊢; simp only [L]
  rw [if_neg c0] at L ⊢
  by_cases c1 : 30 ≤ b0 ∧ b0 ≤ 33
  · rw [if_pos c1] at L ⊢; simp only [L]
  rw [if_neg c1] at L ⊢
  by_cases c2 : 50 ≤ b0 ∧ b0 ≤ 62
  · rw [if_pos c2] at L ⊢; simp only [L]
  rw [if_neg c2] at L ⊢
  by_cases c3 : 70 ≤ b0 ∧ b0 ≤ 73
  · rw [if_pos c3] at L ⊢; simp only [L]
  rw [if_neg c3] at L ⊢
  by_cases c4 : 80 ≤ b0 ∧ b0 ≤ 90
  · rw [if_pos c4] at L ⊢; simp only [L]
  rw [if_neg c4] at L ⊢
  by_cases c5 : 100 ≤ b0 ∧ b0 ≤ 111
  · rw [if_pos c5] at L ⊢; simp only [L]
  rw [if_neg c5] at L ⊢
  by_cases c6 : 120 ≤ b0 ∧ b0 ≤ 161
  · rw [if_pos c6] at L ⊢; simp only [L]
  rw [if_neg c6] at L ⊢
  by_cases c7 : 170 ≤ b0 ∧ b0 ≤ 175
  · rw [if_pos c7] at L ⊢; simp only [L]
  rw [if_neg c7] at L ⊢
  by_cases c8 : b0 = 180
  · rw [if_pos c8] at L ⊢; simp only [L]
  rw [if_neg c8] at L ⊢
  by_cases c9 : 190 ≤ b0 ∧ b0 ≤ 230
  · rw [if_pos c9] at L ⊢; simp only [L]
  rw [if_neg c9] at L ⊢
  by_cases d1 : b0 = 10
  · rw [if_pos d1] at L; simp only [L]
  rw [if_neg d1] at L
  by_cases d2 : b0 = 40
  · rw [if_pos d2] at L; simp only [L]
  rw [if_neg d2] at L; simp only [L]

theorem getD_take_drop (code : List UInt8) (i d k : Nat) (h : i + 1 + d ≤ code.length) :
    ((code.drop i).take (d + 1)).getD k 0 = if k ≤ d then code.getD (i + k) 0 else 0 := by
  simp only [List.getD_eq_getElem?_getD, List.getElem?_take, List.getElem?_drop]
  by_cases hk : k ≤ d
  · rw [if_pos (by omega), if_pos hk]
  · rw [if_neg (by omega), if_neg hk]; rfl

theorem decodeAt_cases {code : List UInt8} {mask : List Bool} {i d : Nat}
    (hs : IsSkip mask code.length i d) (hd : (skipDistances mask code.length)[i]? = some d) :
    (Complete code i d → d ≤ 15 → ∃ ins, decodeAt code (skipDistances mask code.length) i = .ok ins) ∧
    (¬ Complete code i d → d ≤ 15 → decodeAt code (skipDistances mask code.length) i = .error .panic) ∧
    (15 < d → decodeAt code (skipDistances mask code.length) i = .error .invalidFormat) := by
  have hin := hs.inside
  unfold decodeAt
  rw [hd, Option.getD_some, if_neg (by omega), show i + 1 + d - i = d + 1 by omega]
  have hl : ((code.drop i).take (d + 1)).length = d + 1 := by
    rw [List.length_take, List.length_drop]; omega
  refine ⟨fun hc h15 => ?_, fun hc h15 => ?_, fun h15 => ?_⟩
  · have := fromBlob_ok_iff ((code.drop i).take (d + 1)) i d hl (by omega)
    rw [getD_take_drop _ _ _ _ hin, getD_take_drop _ _ _ _ hin, getD_take_drop _ _ _ _ hin,
      operandBytes_eq _ _ _ (by rw [if_pos (by omega)]; exact UInt8.toNat_lt _)] at this
    unfold Complete at hc
    rw [if_pos (by omega : 0 ≤ d), Nat.add_zero, apply_ite UInt8.toNat, apply_ite UInt8.toNat,
      show UInt8.toNat 0 = 0 from rfl] at this
    exact (by rwa [if_pos hc] at this)
  · have := fromBlob_ok_iff ((code.drop i).take (d + 1)) i d hl (by omega)
    rw [getD_take_drop _ _ _ _ hin, getD_take_drop _ _ _ _ hin, getD_take_drop _ _ _ _ hin,
      operandBytes_eq _ _ _ (by rw [if_pos (by omega)]; exact UInt8.toNat_lt _)] at this
    unfold Complete at hc
    rw [if_pos (by omega : 0 ≤ d), Nat.add_zero, apply_ite UInt8.toNat, apply_ite UInt8.toNat,
      show UInt8.toNat 0 = 0 from rfl] at this
    exact (by rwa [if_neg hc] at this)
  · unfold fromBlob
    rw [byteAt_ok (by omega)]
    simp only [bind, Except.bind]
    rw [if_pos (show ((code.drop i).take (d + 1)).length > MAX_INST by rw [hl]; simp only [MAX_INST]; omega)]

theorem skipAt_of_isSkip {mask : List Bool} {len i d : Nat} (h : IsSkip mask len i d) :
    (skipDistances mask len)[i]? = some d := by
  obtain ⟨s1, s2⟩ := skipDistances_spec mask len
  have hlt : i < (skipDistances mask len).length := by rw [s1]; have := h.inside; omega
  rw [List.getElem?_eq_getElem hlt]
  exact congrArg some ((s2 i _ (List.getElem?_eq_getElem hlt)).unique h)

theorem isSkip_exists {mask : List Bool} {len i : Nat} (h : i < len) : ∃ d, IsSkip mask len i d := by
  obtain ⟨s1, s2⟩ := skipDistances_spec mask len
  have hlt : i < (skipDistances mask len).length := by rw [s1]; exact h
  exact ⟨_, s2 i _ (List.getElem?_eq_getElem hlt)⟩

end Fastroll.Pvm
