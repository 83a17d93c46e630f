import Verif.Pvm.InterpLemmas2
/-! Lemmas about whole runs of the interpreter. -/
namespace Fastroll.Pvm

theorem runFuel_none {p : Prog} : ∀ n vm vm', runFuel p n vm = (none, vm') →
    vm'.gas = vm.gas - n ∧ (0 < n → 0 ≤ vm'.gas) := by
  intro n
  induction n with
  | zero => intro vm vm' h; cases h; exact ⟨by omega, by omega⟩
  | succ n ih =>
    intro vm vm' h
    unfold runFuel at h
    split at h
    · rename_i vm1 h1
      obtain ⟨g1, g2, _⟩ := (iter_spec p vm).1 vm1 h1
      obtain ⟨k1, k2⟩ := ih vm1 vm' h
      refine ⟨by omega, fun _ => ?_⟩
      by_cases hn : 0 < n
      · exact k2 hn
      · have : n = 0 := by omega
        subst this; cases h; exact g2
    · cases h

theorem runFuel_some {p : Prog} : ∀ n vm r vm', runFuel p n vm = (some r, vm') →
    vm'.gas ≤ vm.gas ∧ vm.gas - n ≤ vm'.gas ∧ (r = .ok .outOfGas → vm'.gas < 0) ∧
      (∀ h, r = .ok (.hostCall h) → vm'.gas < vm.gas ∧ 0 ≤ vm'.gas) ∧ r ≠ .ok .cont := by
  intro n
  induction n with
  | zero => intro vm r vm' h; cases h
  | succ n ih =>
    intro vm r vm' h
    unfold runFuel at h
    split at h
    · rename_i vm1 h1
      obtain ⟨g1, g2, _⟩ := (iter_spec p vm).1 vm1 h1
      obtain ⟨k1, k2, k3, k4, k5⟩ := ih vm1 r vm' h
      refine ⟨by omega, by omega, k3, fun x hx => ?_, k5⟩
      have := k4 x hx
      omega
    · rename_i r1 vm1 h1
      cases h
      obtain ⟨g1, g2, g3, g4⟩ := (iter_spec p vm).2 r vm' h1
      refine ⟨by omega, by omega, fun h => (g2 h).2, fun x hx => ?_, g4⟩
      have := g3 x hx
      omega

theorem runFuel_terminates (p : Prog) (vm : VM) (n : Nat) (hn : vm.gas.toNat < n) :
    ∃ r vm', runFuel p n vm = (some r, vm') := by
  rcases h : runFuel p n vm with ⟨r, vm'⟩
  cases r with
  | some r => exact ⟨r, vm', rfl⟩
  | none =>
    exfalso
    obtain ⟨h1, h2⟩ := runFuel_none n vm vm' h
    have := h2 (by omega)
    omega

/-- More fuel does not change a finished run. -/
theorem runFuel_mono {p : Prog} : ∀ n k vm r vm', runFuel p n vm = (some r, vm') →
    runFuel p (n + k) vm = (some r, vm') := by
  intro n
  induction n with
  | zero => intro k vm r vm' h; cases h
  | succ n ih =>
    intro k vm r vm' h
    rw [Nat.succ_add]
    unfold runFuel at h ⊢
    split
    · rename_i vm1 h1
      rw [h1] at h
      exact ih k vm1 r vm' h
    · rename_i r1 vm1 h1
      rw [h1] at h
      exact h

theorem applyHost_gas (vm : VM) (c : HostResult) :
    (vm.applyHost c).2.gas ≤ vm.gas ∧ ∀ post, (vm.applyHost c).1 = .ok post →
      (vm.applyHost c).2.gas = post ∧ post = vm.gas - c.charge := by
  have key : ∀ v : VM, (v.charge c.charge).2.gas ≤ v.gas ∧ ∀ post, (v.charge c.charge).1 = .ok post →
      (v.charge c.charge).2.gas = post ∧ post = v.gas - c.charge := by
    intro v
    rcases charge_spec v c.charge with ⟨e, h⟩ | ⟨_, h⟩
    · rw [h]; exact ⟨Int.le_refl _, fun post hp => by cases hp⟩
    · rw [h]
      refine ⟨by simp only []; omega, fun post hp => ?_⟩
      simp only [Except.ok.injEq] at hp
      exact ⟨hp, hp.symm⟩
  unfold VM.applyHost
  cases c.mem with
  | none => exact key { vm with regs := setReg (setReg vm.regs 7 c.r7) 8 c.r8 }
  | some w =>
    simp only []
    split
    · exact ⟨Int.le_refl _, fun post hp => by cases hp⟩
    · rename_i m _
      exact key { vm with regs := setReg (setReg vm.regs 7 c.r7) 8 c.r8, mem := m }

theorem extIter_spec {σ : Type} (p : Prog) (host : Host σ) (fuel : Nat) (vm : VM) (s : σ)
    (hf : vm.gas.toNat < fuel) :
    (extIter p host fuel vm s).1 ≠ .stuck ∧ (extIter p host fuel vm s).2.1.gas ≤ vm.gas ∧
      ((extIter p host fuel vm s).1 = .continue →
        (extIter p host fuel vm s).2.1.gas < vm.gas ∧ 0 ≤ (extIter p host fuel vm s).2.1.gas) := by
  obtain ⟨r, vm', hr⟩ := runFuel_terminates p vm fuel hf
  obtain ⟨g1, _, _, g4, _⟩ := runFuel_some fuel vm r vm' hr
  unfold extIter
  rw [hr]
  cases r with
  | error e => exact ⟨by simp, g1, by simp⟩
  | ok exit =>
    cases exit with
    | hostCall h =>
      have hg := g4 h rfl
      simp only []
      rcases host h vm' s with ⟨res, s'⟩
      cases res with
      | error e => exact ⟨by simp, g1, by simp⟩
      | ok res =>
        simp only []
        have ha := applyHost_gas vm' res
        rcases hap : vm'.applyHost res with ⟨post, vm2⟩
        rw [hap] at ha
        simp only [] at ha
        split
        · cases post with
          | error e => exact ⟨by simp, by simp only []; omega, by simp⟩
          | ok post =>
            have := ha.2 post rfl
            simp only []
            split
            · exact ⟨by simp, by simp only []; omega, by simp⟩
            · exact ⟨by simp, by simp only []; omega, fun _ => ⟨by simp only []; omega, by simp only []; omega⟩⟩
        · split
          · cases post with
            | error e => exact ⟨by simp, by simp only []; omega, by simp⟩
            | ok post => exact ⟨by simp, by simp only []; omega, by simp⟩
          · exact ⟨by simp, g1, by simp⟩
    | _ => exact ⟨by simp, g1, by simp⟩

theorem extRun_spec {σ : Type} (p : Prog) (host : Host σ) (fuel : Nat) : ∀ n vm s,
    vm.gas.toNat < fuel → vm.gas.toNat < n →
    (∃ r, (extRun p host fuel n vm s).1 = .done r) ∧ (extRun p host fuel n vm s).2.1.gas ≤ vm.gas := by
  intro n
  induction n with
  | zero => intro vm s _ h; omega
  | succ n ih =>
    intro vm s hf hn
    obtain ⟨h1, h2, h3⟩ := extIter_spec p host fuel vm s hf
    unfold extRun
    rcases he : extIter p host fuel vm s with ⟨o, vm', s'⟩
    rw [he] at h1 h2 h3
    simp only [] at h1 h2 h3
    cases o with
    | stuck => exact absurd rfl h1
    | done r => exact ⟨⟨r, rfl⟩, h2⟩
    | «continue» =>
      have := h3 rfl
      obtain ⟨k1, k2⟩ := ih vm' s' (by omega) (by omega)
      exact ⟨k1, by simp only []; omega⟩

/-! ### Exact control transfer -/

/-- With gas left, a change without a memory write is applied as is. -/
theorem apply_plain (vm : VM) (c : Change) (hg : 1 ≤ vm.gas) (hm : c.mem = none) :
    vm.apply c true = (.gas (vm.gas - 1),
      { vm with gas := vm.gas - 1, pc := c.newPc,
                regs := match c.reg with | some (i, v) => vm.regs.set i v | none => vm.regs }) := by
  unfold VM.apply
  have h1 : (INST_GAS.toNat : Int) = 1 := rfl
  rcases charge_spec vm INST_GAS.toNat with ⟨e, h⟩ | ⟨_, h⟩
  · exfalso
    unfold VM.charge at h
    rw [if_neg (by decide), if_neg (by rw [h1]; omega)] at h
    simp at h
  · rw [h]
    simp only [h1, hm]
    rw [if_neg (by simp; omega)]
    cases c.reg <;> rfl

/-- One iteration of an instruction that neither writes memory nor fails. -/
theorem iter_plain {p : Prog} {vm : VM} {ins : Instr} {e : Exit} {c : Change} (hg : 1 ≤ vm.gas)
    (hi : p.instructionAt vm.pc = some ins) (hs : singleStep vm p ins = (.ok (e, c), vm.mem))
    (hm : c.mem = none) (he : e.changesState = true) :
    iter p vm = (if e = .cont then none else some (.ok e),
      { vm with gas := vm.gas - 1, pc := c.newPc,
                regs := match c.reg with | some (i, v) => vm.regs.set i v | none => vm.regs }) := by
  unfold iter
  rw [hi]
  simp only [hs, he]
  rw [show ({ vm with mem := vm.mem } : VM) = vm from rfl, apply_plain vm c hg hm]
  simp only []
  rw [if_neg (by omega)]
  split <;> rfl

theorem Cond.eval_iff (c : Cond) (a b : Reg) : c.eval a b = true ↔ c.Holds a b := by
  have hz : ∀ x : Reg, uToI 64 x.toNat = x.toInt := by
    intro x
    unfold uToI asI
    have hx := x.isLt
    have e1 : (1 <<< (64 - 1) : Nat) = 2 ^ 63 := by decide
    have e2 : ((1 <<< 64 : Nat) : Int) = 2 ^ 64 := by decide
    rw [e1, e2]
    have h1 : (BitVec.ofInt 64 (x.toNat : Int)) = x := by simp
    have h2 : (BitVec.ofInt 64 ((x.toNat : Int) - 2 ^ 64)) = x := by
      apply BitVec.eq_of_toNat_eq
      rw [BitVec.toNat_ofInt]
      omega
    rw [h1, h2]
    split <;> rfl
  cases c <;> simp only [Cond.eval, Cond.Holds, hz, decide_eq_true_eq]
  · exact ⟨fun h => by rw [h], BitVec.eq_of_toNat_eq⟩
  · exact ⟨fun h e => h (BitVec.eq_of_toNat_eq e), fun h e => h (by rw [e])⟩
  all_goals exact Iff.rfl

theorem foldr_leValue (bs : List UInt8) : bs.foldr (fun b acc => b.toNat + 256 * acc) 0 = leValue bs := by
  induction bs with
  | nil => rfl
  | cons b bs ih => simp [leValue, ih]

theorem leValue_lt (bs : List UInt8) : leValue bs < 2 ^ (8 * bs.length) := by
  induction bs with
  | nil => simp [leValue]
  | cons b bs ih =>
    have := b.toNat_lt
    rw [List.length_cons, show 8 * (bs.length + 1) = 8 * bs.length + 8 by omega, Nat.pow_add]
    generalize 2 ^ (8 * bs.length) = k at *
    simp only [leValue]
    omega

theorem unsignedToSigned_eq (bs : List UInt8) (h : 0 < bs.length) :
    unsignedToSigned (leValue bs) bs.length = leSigned bs := by
  unfold unsignedToSigned leSigned
  have hlt := leValue_lt bs
  rw [BitVec.toInt_eq_toNat_cond, BitVec.toNat_ofNat, Nat.mod_eq_of_lt hlt, Nat.one_shiftLeft, Nat.one_shiftLeft]
  have hp : 2 ^ (8 * bs.length) = 2 * 2 ^ (8 * bs.length - 1) := by
    rw [← Nat.pow_succ', show Nat.succ (8 * bs.length - 1) = 8 * bs.length by omega]
  rw [hp]
  generalize 2 ^ (8 * bs.length - 1) = k at *
  by_cases hc : leValue bs < k
  · rw [if_pos hc, if_pos (by omega)]
  · rw [if_neg hc, if_neg (by omega)]

/-- The target of an offset operand is the instruction's position plus the signed offset. -/
theorem immTarget_spec {pc : Nat} {blob : List UInt8} {n start : Nat} {r : Reg}
    (h : immTarget pc blob n start = .ok r) :
    ((n = 0 ∨ start + n ≤ blob.length) ∧ r = BitVec.ofInt 64 (pc + leSigned ((blob.drop start).take n))) := by
  unfold immTarget at h
  split at h
  · rename_i hn
    unfold sliceLE at h
    split at h
    · cases h
    · rename_i hle
      cases h
      refine ⟨.inr (by omega), ?_⟩
      rw [foldr_leValue]
      have hl : ((blob.drop start).take n).length = n := by simp; omega
      have := unsignedToSigned_eq ((blob.drop start).take n) (by omega)
      rw [hl] at this
      show BitVec.ofInt 64 (_ + unsignedToSigned _ n) = _
      rw [this]
  · rename_i hn
    have : n = 0 := by omega
    subst this
    cases h
    refine ⟨.inl rfl, ?_⟩
    simp [leSigned, leValue]

end Fastroll.Pvm
