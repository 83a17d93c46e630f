import Verif.Pvm.StepLemmas2
/-! Lemmas: the paper's step is realised instruction by instruction, and is unique. -/
namespace Fastroll.Pvm
open Paper (oct le X imm off)

theorem blocks_iff {p : Prog} (hl : Loaded p) (n : Nat)
    (hf : ∀ e, EndsBlock p.code 0 → IsSkip p.mask p.code.length 0 e → n ≠ 1 + e) :
    bitAt p.blocks n = true ↔ IsBlockStart p.code p.mask n := by
  rw [hl.blocks]
  constructor
  · rintro ⟨_, h | ⟨m, d, _, h⟩⟩
    · exact .inl h
    · exact .inr ⟨m, d, h⟩
  · rintro (h | ⟨m, d, h1, h2, h3, h4⟩)
    · exact ⟨by omega, .inl h⟩
    · refine ⟨by have := h3.inside; omega, .inr ⟨m, d, ?_, h1, h2, h3, h4⟩⟩
      rcases Nat.eq_zero_or_pos m with hm | hm
      · subst hm
        exact absurd (by omega) (hf d h2 h3)
      · exact hm

theorem addr32_add (a b : Reg) : addr32 (a + b) = (a.toNat + b.toNat) % 2 ^ 32 := by
  unfold addr32
  rw [BitVec.toNat_add, mod64_mod32]

theorem width_pos {b : UInt8} {w : Nat} (h : Op.ofByte b.toNat = .storeImm w ∨ Op.ofByte b.toNat = .store w ∨
    Op.ofByte b.toNat = .storeImmInd w ∨ Op.ofByte b.toNat = .storeInd w) : 0 < w := by
  have key : ∀ b : Fin 256, ∀ w : Fin 1, ¬ (Op.ofByte b.1 = .storeImm w.1 ∨ Op.ofByte b.1 = .store w.1 ∨
    Op.ofByte b.1 = .storeImmInd w.1 ∨ Op.ofByte b.1 = .storeInd w.1) := by decide +kernel
  rcases Nat.eq_zero_or_pos w with hw | hw
  · subst hw
    exact absurd h (key ⟨b.toNat, b.toNat_lt⟩ 0)
  · exact hw

/-- What the step theorem assumes of program, machine and instruction. -/
structure StepOk (p : Prog) (vm : VM) (d : Nat) : Prop where
  loaded : Loaded p
  gas : 1 ≤ vm.gas
  mem : vm.mem.WF
  regs : vm.regs.length = 13
  starts : StartsAt p.mask vm.pc
  skip : IsSkip p.mask p.code.length vm.pc d
  code : p.code.length < 2 ^ 31
  regular : (Paper.effect p.code vm.pc d vm.paper.reg).Regular vm.mem.data.length
  rem : ∀ o, Paper.inst (oct p.code vm.pc) = .three o →
    ¬ BadRem o (vm.r (min 12 (oct p.code (vm.pc + 1) % 16))) (vm.r (min 12 (oct p.code (vm.pc + 1) / 16)))
  second : ∀ e, EndsBlock p.code 0 → IsSkip p.mask p.code.length 0 e →
    ¬ (Paper.effect p.code vm.pc d vm.paper.reg).Target p.table (1 + e)

theorem step_realises {p : Prog} {vm : VM} {d : Nat} (H : StepOk p vm d) :
    Realises (IsBlockStart p.code p.mask) p.table (vm.pc + 1 + d) (Paper.effect p.code vm.pc d vm.paper.reg) vm
      (iter p vm) := by
  obtain ⟨hl, hg, hwf, hregs, hs, hd, hcode, hreg, hrem, hsec⟩ := H
  obtain ⟨ins, hi⟩ := hl.start _ hs
  obtain ⟨_, b, hb, hop⟩ := hl.inst _ _ hi
  have hin : vm.pc + 1 + d ≤ p.code.length := hd.inside
  have hfit := fromBlob_fits hin (hl.decode _ _ _ hi hd)
  have hnext : p.nextPc vm.pc = vm.pc + 1 + d := by
    obtain ⟨d', hd', hsk⟩ := hl.skipAt hs
    have := hsk.unique hd
    subst this
    unfold Prog.nextPc
    rw [hd']
    rfl
  have hoct : oct p.code vm.pc = b.toNat := by
    unfold oct
    rw [List.getD_eq_getElem?_getD, hb]
    rfl
  have hinst : Paper.inst (oct p.code vm.pc) = ins.op.paper := by rw [hoct, inst_ofByte, hop]
  have hr12 : ∀ x, min 12 x < vm.regs.length := fun x => by omega
  have hsum : ∀ n : Nat, n ≤ 4 → ∀ i, (-2 ^ 31 : Int) ≤ (vm.pc : Int) + off p.code i n ∧ (vm.pc : Int) + off p.code i n < 2 ^ 32 := by
    intro n hn i
    have := off_bounds p.code i n hn
    omega
  rw [← hnext]
  unfold Paper.effect at hreg hsec ⊢
  rw [hinst] at hreg hsec hrem ⊢
  unfold Operands at hfit
  simp only [] at hreg hsec hfit ⊢
  have hblk : ∀ {t : Int} {n : Nat}, (∀ e, EndsBlock p.code 0 → IsSkip p.mask p.code.length 0 e → ¬ t = ((1 + e : Nat) : Int)) →
      t = n → (bitAt p.blocks n = true ↔ IsBlockStart p.code p.mask n) :=
    fun h e => blocks_iff hl _ (fun k h1 h2 h3 => h k h1 h2 (by rw [e, h3]))
  have hblk2 : ∀ {a : Nat}, (∀ e, EndsBlock p.code 0 → IsSkip p.mask p.code.length 0 e →
      ¬ ∃ k : Nat, a = 2 * (k + 1) ∧ p.table[k]? = some (1 + e)) →
      ∀ k n : Nat, a = 2 * (k + 1) → p.table[k]? = some n → (bitAt p.blocks n = true ↔ IsBlockStart p.code p.mask n) :=
    fun h k n e1 e2 => blocks_iff hl _ (fun e h1 h2 h3 => h e h1 h2 ⟨k, e1, by rw [e2, h3]⟩)
  cases hk : ins.op <;> rw [hk] at hreg hsec hfit hop hrem <;> simp only [Op.paper, Op.layout] at hreg hsec hfit hrem ⊢
  case trap =>
    have hss : singleStep vm p ins = (.ok (.panic, { newPc := vm.pc }), vm.mem) := by unfold singleStep; rw [hk]
    rw [iter_plain hg hi hss rfl rfl]
    refine ⟨.panic, _, .trap, rfl, rfl, rfl, rfl, fun h => ?_⟩
    rcases h with h | ⟨n, h⟩ <;> cases h
  case fallthrough =>
    have hss : singleStep vm p ins = (.ok (.cont, { newPc := p.nextPc vm.pc }), vm.mem) := by unfold singleStep; rw [hk]
    rw [iter_plain hg hi hss rfl rfl]
    exact ⟨.cont, _, .next, rfl, rfl, rfl, rfl, fun _ => rfl⟩
  case ecalli =>
    have hss : singleStep vm p ins = (.ok (.hostCall (ins.imm1.toNat % 256), { newPc := p.nextPc vm.pc }), vm.mem) := by
      unfold singleStep; rw [hk]
    rw [iter_still hg hi hss rfl]
    refine ⟨.host _, _, .host, ?_, rfl, rfl, rfl, fun _ => rfl⟩
    rw [hfit]
    have : imm p.code (vm.pc + 1) (min 4 d) % 256 = imm p.code (vm.pc + 1) (min 4 d) := Nat.mod_eq_of_lt hreg
    rw [this]
    rfl
  case loadImm64 =>
    have hss : singleStep vm p ins = (.ok (.cont, { newPc := p.nextPc vm.pc, reg := some (ins.rs1, ins.imm1) }), vm.mem) := by
      unfold singleStep; rw [hk]
    rw [← hfit.1]
    exact realises_set hg hi (by rw [hfit.1]; exact hr12 _) hss hfit.2
  case loadImm =>
    have hss : singleStep vm p ins = (.ok (.cont, { newPc := p.nextPc vm.pc, reg := some (ins.rs1, ins.imm1) }), vm.mem) := by
      unfold singleStep; rw [hk]
    rw [← hfit.1]
    exact realises_set hg hi (by rw [hfit.1]; exact hr12 _) hss hfit.2
  case op2 o =>
    have hss : singleStep vm p ins = (.ok (.cont, { newPc := p.nextPc vm.pc, reg := some (ins.rd, o.eval (vm.r ins.rs1)) }), vm.mem) := by
      unfold singleStep; rw [hk]
    rw [← hfit.1, ← hfit.2]
    exact realises_set hg hi (by rw [hfit.1]; exact hr12 _) hss (C10_two_reg o _)
  case opImm o =>
    have hss : singleStep vm p ins = (.ok (.cont, { newPc := p.nextPc vm.pc, reg := some (ins.rs1, o.eval (vm.r ins.rs1) (vm.r ins.rs2) ins.imm1) }), vm.mem) := by
      unfold singleStep; rw [hk]
    rw [← hfit.1, ← hfit.2.1, ← hfit.2.2]
    exact realises_set hg hi (by rw [hfit.1]; exact hr12 _) hss (C10_two_reg_imm o _ _ _)
  case op3 o =>
    have hss : singleStep vm p ins = (.ok (.cont, { newPc := p.nextPc vm.pc, reg := some (ins.rd, o.eval (vm.r ins.rd) (vm.r ins.rs1) (vm.r ins.rs2)) }), vm.mem) := by
      unfold singleStep; rw [hk]
    have hrem' := hrem o rfl
    rw [← hfit.1, ← hfit.2.1] at hrem' ⊢
    rw [← hfit.2.2]
    exact realises_set hg hi (by rw [hfit.2.2]; exact hr12 _) hss (C10_three_reg_partial o _ _ _ hrem')
  case sbrk => exact hreg.elim
  case storeImm w =>
    have hss : singleStep vm p ins = (.ok (.cont, { newPc := p.nextPc vm.pc, mem := some (ins.imm1.toNat % 2 ^ 32, storeBytes w ins.imm2) }), vm.mem) := by
      unfold singleStep; rw [hk]; rfl
    rw [hfit.1] at hss
    exact realises_store hg hwf hi (width_pos (.inl hop.symm)) hreg hfit.2 hss
  case store w =>
    have hss : singleStep vm p ins = (.ok (.cont, { newPc := p.nextPc vm.pc, mem := some (ins.imm1.toNat % 2 ^ 32, storeBytes w (vm.r ins.rs1)) }), vm.mem) := by
      unfold singleStep; rw [hk]; rfl
    rw [hfit.2] at hss
    exact realises_store hg hwf hi (width_pos (.inr (.inl hop.symm))) hreg (by rw [hfit.1]; rfl) hss
  case storeImmInd w =>
    have hss : singleStep vm p ins = (.ok (.cont, { newPc := p.nextPc vm.pc, mem := some (addr32 (vm.r ins.rs1 + ins.imm1), storeBytes w ins.imm2) }), vm.mem) := by
      unfold singleStep; rw [hk]
    rw [addr32_add, hfit.1, hfit.2.1] at hss
    exact realises_store hg hwf hi (width_pos (.inr (.inr (.inl hop.symm)))) hreg hfit.2.2 hss
  case storeInd w =>
    have hss : singleStep vm p ins = (.ok (.cont, { newPc := p.nextPc vm.pc, mem := some (addr32 (vm.r ins.rs2 + ins.imm1), storeBytes w (vm.r ins.rs1)) }), vm.mem) := by
      unfold singleStep; rw [hk]
    rw [addr32_add, hfit.2.1, hfit.2.2] at hss
    exact realises_store hg hwf hi (width_pos (.inr (.inr (.inr hop.symm)))) hreg (by rw [hfit.1]; rfl) hss
  case load k =>
    have hss : singleStep vm p ins = (loadStep vm p (ins.imm1.toNat % 2 ^ 32) k ins.rs1 k.value, vm.mem) := by
      unfold singleStep; rw [hk]; rfl
    rw [hfit.1, hfit.2] at hss
    exact realises_load hg hwf hi (hr12 _) hreg (fun x hx => value_X k x hx) hss
  case loadInd k =>
    have hss : singleStep vm p ins = (loadStep vm p (addr32 (vm.r ins.rs2 + ins.imm1)) k ins.rs1 k.valueInd, vm.mem) := by
      unfold singleStep; rw [hk]
    rw [addr32_add, hfit.1, hfit.2.1, hfit.2.2] at hss
    exact realises_load hg hwf hi (hr12 _) hreg (fun x hx => valueInd_X k x hx) hss
  case jump =>
    refine realises_branch (cb := true) (lr := none) hg hi hcode hl (hsum _ (by omega) _).1 (hsum _ (by omega) _).2
      (fun n => hblk hsec) ⟨fun _ => trivial, fun _ => rfl⟩ rfl (fun x h => by cases h) ?_
    unfold singleStep
    rw [hk, hfit]
  case loadImmJump =>
    refine realises_branch (cb := true) (lr := some (ins.rs1, ins.imm1)) hg hi hcode hl (hsum _ (by omega) _).1 (hsum _ (by omega) _).2
      (fun n => hblk hsec) ⟨fun _ => trivial, fun _ => rfl⟩ (by rw [← hfit.1, ← hfit.2.1]; rfl)
      (fun x h => by cases h; simp only []; rw [hfit.1]; exact hr12 _) ?_
    unfold singleStep
    rw [hk, hfit.2.2]
  case branchImm c =>
    refine realises_branch (cb := c.eval (vm.r ins.rs1) ins.imm1) (lr := none) hg hi hcode hl (hsum _ (by omega) _).1 (hsum _ (by omega) _).2
      (fun n => hblk hsec) ?_ rfl (fun x h => by cases h) ?_
    · rw [← hfit.1, ← hfit.2.1]
      exact c.holds_iff _ _
    · unfold singleStep
      rw [hk, hfit.2.2]
  case branch c =>
    refine realises_branch (cb := c.eval (vm.r ins.rs1) (vm.r ins.rs2)) (lr := none) hg hi hcode hl (hsum _ (by omega) _).1 (hsum _ (by omega) _).2
      (fun n => hblk hsec) ?_ rfl (fun x h => by cases h) ?_
    · rw [← hfit.1, ← hfit.2.1]
      exact c.holds_iff _ _
    · unfold singleStep
      rw [hk, hfit.2.2]
  case jumpInd =>
    refine realises_djump (lr := none) hg hi (hblk2 hsec) rfl (fun x h => by cases h) ?_
    intro r hr
    unfold singleStep
    rw [hk]
    simp only []
    have : addr32 (vm.r ins.rs1 + ins.imm1) = _ := addr32_add _ _
    rw [hfit.1, hfit.2] at this
    rw [hfit.1, this]
    have hr' := hr
    unfold VM.paper at hr'
    simp only [] at hr'
    rw [hr']
  case loadImmJumpInd =>
    refine realises_djump (lr := some (ins.rs1, ins.imm1)) hg hi (hblk2 hsec) (by rw [← hfit.1, ← hfit.2.2.1]; rfl)
      (fun x h => by cases h; simp only []; rw [hfit.1]; exact hr12 _) ?_
    intro r hr
    unfold singleStep
    rw [hk]
    simp only []
    have : addr32 (vm.r ins.rs2 + ins.imm2) = _ := addr32_add _ _
    rw [hfit.2.1, hfit.2.2.2] at this
    rw [hfit.2.1, this]
    have hr' := hr
    unfold VM.paper at hr'
    simp only [] at hr'
    rw [hr']

end Fastroll.Pvm
