import Verif.Pvm.StepSpec
import Verif.Pvm.LoadLemmas2
import Verif.Pvm.MemLemmas2
import Verif.Pvm.PropsAlu
/-! Lemmas: the decoded operands are the paper's. -/
namespace Fastroll.Pvm
open Paper (oct le X imm off)

/-- Whether a load extends the sign. -/
def LoadK.signed : LoadK → Bool
  | .i8 | .i16 | .i32 => true
  | _ => false

/-- The paper's name of a decoded opcode. -/
def Op.paper : Op → Paper.Inst
  | .trap => .trap
  | .fallthrough => .fallthrough
  | .ecalli => .ecalli
  | .loadImm64 => .loadImm64
  | .storeImm w => .storeImm w
  | .jump => .jump
  | .jumpInd => .jumpInd
  | .loadImm => .loadImm
  | .load k => .load k.size k.signed
  | .store w => .store w
  | .storeImmInd w => .storeImmInd w
  | .loadImmJump => .loadImmJump
  | .branchImm c => .branchImm c
  | .sbrk => .sbrk
  | .op2 o => .two o
  | .storeInd w => .storeInd w
  | .loadInd k => .loadInd k.size k.signed
  | .opImm o => .imm o
  | .branch c => .branch c
  | .loadImmJumpInd => .loadImmJumpInd
  | .op3 o => .three o

theorem inst_fin : ∀ b : Fin 256, Paper.inst b.1 = (Op.ofByte b.1).paper := by decide +kernel

theorem inst_ofByte (b : UInt8) : Paper.inst b.toNat = (Op.ofByte b.toNat).paper := inst_fin ⟨b.toNat, b.toNat_lt⟩

theorem le_succ (code : List UInt8) (i n : Nat) : le code i (n + 1) = oct code i + 256 * le code (i + 1) n := by
  unfold le
  rw [List.range_succ_eq_map, List.map_cons, List.sum_cons, List.map_map]
  simp only [Nat.add_zero, Nat.pow_zero, Nat.mul_one]
  congr 1
  have : ∀ (l : List Nat), (l.map ((fun k => oct code (i + k) * 256 ^ k) ∘ Nat.succ)).sum =
      256 * (l.map fun k => oct code (i + 1 + k) * 256 ^ k).sum := by
    intro l
    induction l with
    | nil => rfl
    | cons a l ih =>
      simp only [List.map_cons, List.sum_cons, ih, Function.comp]
      rw [show i + Nat.succ a = i + 1 + a by omega, Nat.pow_succ, Nat.mul_add]
      congr 1
      rw [← Nat.mul_assoc, Nat.mul_comm]
  exact this _

theorem le_lt (code : List UInt8) : ∀ n i, le code i n < 2 ^ (8 * n) := by
  intro n
  induction n with
  | zero => intro i; simp [le]
  | succ n ih =>
    intro i
    rw [le_succ, show 8 * (n + 1) = 8 * n + 8 by omega, Nat.pow_add]
    have := ih (i + 1)
    have h2 : oct code i < 256 := (code.getD i 0).toNat_lt
    generalize 2 ^ (8 * n) = k at *
    omega

theorem leValue_le (l : List UInt8) : ∀ n s, s + n ≤ l.length → leValue ((l.drop s).take n) = le l s n := by
  intro n
  induction n with
  | zero => intro s _; simp [leValue, le]
  | succ n ih =>
    intro s h
    rw [le_succ, ← ih (s + 1) (by omega), List.drop_eq_getElem_cons (by omega : s < l.length), List.take_succ_cons]
    simp only [leValue, oct, List.getD_eq_getElem?_getD, List.getElem?_eq_getElem (by omega : s < l.length)]
    rfl

section
variable {code : List UInt8} {i d : Nat} (hin : i + 1 + d ≤ code.length)
include hin

theorem blob_length : ((code.drop i).take (d + 1)).length = d + 1 := by simp; omega

theorem byteAt_oct {k v : Nat} (h : byteAt ((code.drop i).take (d + 1)) k = .ok v) : v = oct code (i + k) := by
  unfold byteAt at h
  split at h
  · rename_i b hb
    cases h
    rw [List.getElem?_take] at hb
    split at hb
    · rw [List.getElem?_drop] at hb
      unfold oct
      rw [List.getD_eq_getElem?_getD, hb]
      rfl
    · cases hb
  · cases h

theorem blob_le (s n : Nat) (h : s + n ≤ d + 1) : le ((code.drop i).take (d + 1)) s n = le code (i + s) n := by
  rw [← leValue_le _ _ _ (by rw [blob_length hin]; exact h), ← leValue_le _ _ _ (by omega), List.drop_take, List.take_take,
    List.drop_drop, Nat.min_eq_left (by omega)]

theorem sliceLE_le {s n v : Nat} (h : sliceLE ((code.drop i).take (d + 1)) s n = .ok v) :
    v = le code (i + s) n ∧ s + n ≤ d + 1 := by
  unfold sliceLE at h
  rw [blob_length hin] at h
  split at h
  · cases h
  · rename_i hle
    cases h
    refine ⟨?_, by omega⟩
    rw [foldr_leValue, leValue_le _ _ _ (by rw [blob_length hin]; omega), blob_le hin _ _ (by omega)]

omit hin in
theorem sext_X (n v : Nat) (hn : n ≤ 4) (hv : v < 2 ^ (8 * n)) : (sext n v).toNat = X n v := by
  unfold sext X
  have : n = 0 ∨ n = 1 ∨ n = 2 ∨ n = 3 ∨ n = 4 := by omega
  rcases this with rfl | rfl | rfl | rfl | rfl
  · rfl
  all_goals
    simp only [Nat.reduceMul, Nat.reduceSub, Nat.reduceEqDiff, if_false, Nat.reducePow, Nat.shiftRight_eq_div_pow, Nat.and_one_is_mod] at hv ⊢
    split
    · rw [BitVec.toNat_ofInt]
      simp only [Nat.reduceShiftLeft]
      omega
    · rw [BitVec.toNat_ofNat]
      omega

theorem immValue_imm {s n : Nat} {r : Reg} (hn : n ≤ 4) (h : immValue ((code.drop i).take (d + 1)) n s = .ok r) :
    r.toNat = imm code (i + s) n := by
  unfold immValue at h
  split at h
  · cases hs : sliceLE ((code.drop i).take (d + 1)) s n with
    | error e => rw [hs] at h; cases h
    | ok v =>
      rw [hs] at h
      cases h
      obtain ⟨h1, _⟩ := sliceLE_le hin hs
      rw [h1]
      exact sext_X _ _ hn (le_lt _ _ _)
  · have : n = 0 := by omega
    subst this
    cases h
    rfl

omit hin in
theorem unsignedToSigned_Z (v n : Nat) : unsignedToSigned v n = Z (8 * n) v := by
  unfold unsignedToSigned Z
  rw [Nat.one_shiftLeft, Nat.one_shiftLeft]
  simp

theorem immTarget_off {s n : Nat} {r : Reg} (h : immTarget i ((code.drop i).take (d + 1)) n s = .ok r) :
    r = BitVec.ofInt 64 (i + off code (i + s) n) := by
  unfold immTarget at h
  split at h
  · cases hs : sliceLE ((code.drop i).take (d + 1)) s n with
    | error e => rw [hs] at h; cases h
    | ok v =>
      rw [hs] at h
      cases h
      obtain ⟨h1, _⟩ := sliceLE_le hin hs
      unfold off
      rw [if_neg (by omega), ← h1, ← unsignedToSigned_Z]
  · have : n = 0 := by omega
    subst this
    cases h
    simp [off]

/-- The operands of an instruction at `i`, read as the paper reads them. -/
def Operands (code : List UInt8) (i ℓ : Nat) (ins : Instr) : Prop :=
  let b := oct code (i + 1)
  let lo := min 12 (b % 16)
  let hi := min 12 (b / 16)
  match ins.op.layout with
  | .none => True
  | .imm => ins.imm1.toNat = imm code (i + 1) (min 4 ℓ)
  | .regImm64 => ins.rs1 = lo ∧ ins.imm1.toNat = le code (i + 2) 8
  | .imm2 => ins.imm1.toNat = imm code (i + 2) (min 4 (b % 8)) ∧
      ins.imm2.toNat = imm code (i + 2 + min 4 (b % 8)) (min 4 (ℓ - min 4 (b % 8) - 1))
  | .offset => ins.imm1 = BitVec.ofInt 64 (i + off code (i + 1) (min 4 ℓ))
  | .regImm => ins.rs1 = lo ∧ ins.imm1.toNat = imm code (i + 2) (min 4 (ℓ - 1))
  | .regImm2 => ins.rs1 = lo ∧ ins.imm1.toNat = imm code (i + 2) (min 4 (b / 16 % 8)) ∧
      ins.imm2.toNat = imm code (i + 2 + min 4 (b / 16 % 8)) (min 4 (ℓ - min 4 (b / 16 % 8) - 1))
  | .regImmOffset => ins.rs1 = lo ∧ ins.imm1.toNat = imm code (i + 2) (min 4 (b / 16 % 8)) ∧
      ins.imm2 = BitVec.ofInt 64 (i + off code (i + 2 + min 4 (b / 16 % 8)) (min 4 (ℓ - min 4 (b / 16 % 8) - 1)))
  | .reg2 => ins.rd = lo ∧ ins.rs1 = hi
  | .reg2Imm => ins.rs1 = lo ∧ ins.rs2 = hi ∧ ins.imm1.toNat = imm code (i + 2) (min 4 (ℓ - 1))
  | .reg2Offset => ins.rs1 = lo ∧ ins.rs2 = hi ∧ ins.imm1 = BitVec.ofInt 64 (i + off code (i + 2) (min 4 (ℓ - 1)))
  | .reg2Imm2 => ins.rs1 = lo ∧ ins.rs2 = hi ∧ ins.imm1.toNat = imm code (i + 3) (min 4 (oct code (i + 2) % 8)) ∧
      ins.imm2.toNat = imm code (i + 3 + min 4 (oct code (i + 2) % 8)) (min 4 (ℓ - min 4 (oct code (i + 2) % 8) - 2))
  | .reg3 => ins.rs1 = lo ∧ ins.rs2 = hi ∧ ins.rd = min 12 (oct code (i + 2))

theorem fromBlob_fits {ins : Instr} (h : fromBlob ((code.drop i).take (d + 1)) i d = .ok ins) : Operands code i d ins := by
  unfold fromBlob at h
  cases h0 : byteAt ((code.drop i).take (d + 1)) 0 with
  | error e => rw [h0] at h; cases h
  | ok c =>
  rw [h0] at h
  simp only [bind, Except.bind] at h
  split at h
  · cases h
  generalize Op.ofByte c = op at h
  cases hlay : op.layout <;> rw [hlay] at h <;> simp only [] at h
  all_goals
    repeat' split at h
    all_goals first
      | (cases h; done)
      | skip
  all_goals
    cases h
    unfold Operands
    simp only [hlay, regIdx]
  all_goals
    try
      have hb := byteAt_oct (k := 1) hin (by assumption)
      subst hb
    try
      have hb := byteAt_oct (k := 2) hin (by assumption)
      subst hb
    try simp only [Nat.sub_sub, Nat.add_assoc]
  all_goals
    repeat' apply And.intro
    all_goals first
      | rfl
      | exact immValue_imm hin (by omega) (by assumption)
      | exact immTarget_off hin (by assumption)
      | trivial
      | skip
  obtain ⟨h1, _⟩ := sliceLE_le (s := 2) (n := 8) hin (by assumption)
  rw [h1, BitVec.toNat_ofNat, Nat.mod_eq_of_lt (le_lt _ _ _)]

end
end Fastroll.Pvm
