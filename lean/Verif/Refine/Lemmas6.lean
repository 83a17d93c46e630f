import Verif.Refine.Lemmas5

/-! Lemmas: a machine without memory runs like one with an empty well-formed memory. -/
namespace Fastroll.Refine
open Fastroll.Pvm Fastroll.Svc

/-- An empty memory with pages. -/
def tiny : Mem := { data := [], acc := [], pageSize := 1, zone := ZONE }

theorem tiny_abs : tiny.abs = noMem.abs := rfl

theorem tiny_wf : tiny.WF := ⟨by decide, rfl⟩

def onTiny (vm : VM) : VM := { vm with mem := tiny }

theorem tiny_validate (t t' : Nat → Bool) (a n : Nat) (hn : n ≠ 0) : tiny.validate t a n = noMem.validate t' a n := by
  unfold Mem.validate
  have h1 : a + n > tiny.data.length := by simp [tiny]; omega
  have h2 : a + n > noMem.data.length := by simp [noMem]; omega
  dsimp only
  rw [if_pos h1, if_pos h2]
  rfl

theorem tiny_readBytes (a n : Nat) : tiny.readBytes a n = noMem.readBytes a n := by
  unfold Mem.readBytes
  by_cases c : n = 0
  · rw [if_pos c, if_pos c]
  · rw [if_neg c, if_neg c, tiny_validate _ noMem.pageReadable a n c]
    rfl

theorem tiny_readByte (a : Nat) : tiny.readByte a = noMem.readByte a := by
  unfold Mem.readByte
  have h1 : a ≥ tiny.data.length := by simp [tiny]
  have h2 : a ≥ noMem.data.length := by simp [noMem]
  rw [if_pos h1, if_pos h2]
  rfl

theorem tiny_loadRaw (a : Nat) (k : LoadK) : loadRaw tiny a k = loadRaw noMem a k := by
  unfold loadRaw
  rw [tiny_readByte, tiny_readBytes]

theorem tiny_step (vm : VM) (p : Prog) (ins : Instr) (hm : vm.mem = noMem) (hop : ins.op ≠ .sbrk) :
    singleStep (onTiny vm) p ins = ((singleStep vm p ins).1, tiny) := by
  have hl : ∀ a k rd v, loadStep (onTiny vm) p a k rd v = loadStep vm p a k rd v := by
    intro a k rd v
    unfold loadStep
    rw [hm, show (onTiny vm).mem = tiny from rfl, tiny_loadRaw]
    rfl
  cases h : ins.op <;> first | (exfalso; exact hop h) | skip
  all_goals
    unfold singleStep
    rw [h]
    simp only [hl]
    rfl

theorem tiny_writeBytes (a : Nat) (bs : Bytes) : tiny.writeBytes a bs = ((noMem.writeBytes a bs).1, tiny) := by
  unfold Mem.writeBytes
  by_cases c : bs.length = 0
  · rw [if_pos c, if_pos c]
  · rw [if_neg c, if_neg c, tiny_validate _ noMem.pageWritable a _ c]
    have : ∃ e, noMem.validate noMem.pageWritable a bs.length = .error e := by
      unfold Mem.validate
      dsimp only
      split
      · exact ⟨_, rfl⟩
      · rw [if_pos (by simp [noMem]; omega)]; exact ⟨_, rfl⟩
    obtain ⟨e, he⟩ := this
    rw [he]

theorem noMem_fault (a : Nat) (bs : Bytes) (x : Nat) : (noMem.writeBytes a bs).1 ≠ .error (.accessViolation x) := by
  unfold Mem.writeBytes
  by_cases c : bs.length = 0
  · rw [if_pos c]; intro h; cases h
  · rw [if_neg c]
    unfold Mem.validate
    dsimp only
    by_cases z : a < noMem.zone
    · rw [if_pos z]; intro h; cases h
    · rw [if_neg z, if_pos (by simp [noMem]; omega)]; intro h; cases h

theorem tiny_apply (vm : VM) (c : Change) (b : Bool) (hm : vm.mem = noMem) :
    (onTiny vm).apply c b = ((vm.apply c b).1, onTiny (vm.apply c b).2) := by
  unfold VM.apply VM.charge
  by_cases c1 : INST_GAS.toNat ≥ 2 ^ 63
  · exact absurd c1 (by decide)
  rw [if_neg c1, if_neg c1]
  by_cases c2 : vm.gas - INST_GAS.toNat < -2 ^ 63
  · rw [if_pos c2, if_pos (show (onTiny vm).gas - INST_GAS.toNat < -2 ^ 63 from c2)]
  rw [if_neg c2, if_neg (show ¬ (onTiny vm).gas - INST_GAS.toNat < -2 ^ 63 from c2)]
  simp only [show (onTiny vm).gas = vm.gas from rfl]
  by_cases c3 : vm.gas - (INST_GAS.toNat : Int) < 0 ∨ (!b) = true
  · rw [if_pos c3, if_pos c3]; rfl
  rw [if_neg c3, if_neg c3]
  cases c.mem with
  | none => simp only []; cases c.reg <;> rfl
  | some ob =>
    obtain ⟨off, bytes⟩ := ob
    simp only []
    rw [hm, show (onTiny vm).mem = tiny from rfl]
    by_cases z : off < noMem.zone
    · rw [if_pos z, if_pos (show off < tiny.zone from z)]; rfl
    rw [if_neg z, if_neg (show ¬ off < tiny.zone from z), tiny_writeBytes]
    have hf := noMem_fault off bytes
    rcases hw : noMem.writeBytes off bytes with ⟨r, m⟩
    rw [hw] at hf
    cases r with
    | ok u => simp only []; cases c.reg <;> rfl
    | error e =>
      cases e with
      | accessViolation x => exact absurd rfl (hf x)
      | forbidden x => rfl
      | outOfRange x => rfl
      | invalidPageIndex x => rfl
      | sbrkHeapStackCollision => rfl

theorem tiny_iter (p : Prog) (vm : VM) (hm : vm.mem = noMem) (hop : ∀ ins, p.instructionAt vm.pc = some ins → ins.op ≠ .sbrk) :
    iter p (onTiny vm) = ((iter p vm).1, onTiny (iter p vm).2) := by
  unfold iter
  rw [show (onTiny vm).pc = vm.pc from rfl]
  cases hi : p.instructionAt vm.pc with
  | none => rfl
  | some ins =>
    have ho := hop ins hi
    simp only []
    rw [tiny_step vm p ins hm ho]
    have hs2 := singleStep_mem (vm := vm) (p := p) ho
    rcases hs : singleStep vm p ins with ⟨r, m⟩
    rw [hs] at hs2
    simp only [] at hs2
    subst hs2
    cases r with
    | error e => rfl
    | ok ec =>
      obtain ⟨e, c⟩ := ec
      simp only []
      have hx : VM.apply { regs := (onTiny vm).regs, mem := tiny, pc := vm.pc, gas := (onTiny vm).gas } c e.changesState =
          ((vm.apply c e.changesState).1, onTiny (vm.apply c e.changesState).2) := tiny_apply vm c _ hm
      have hy : VM.apply { regs := vm.regs, mem := vm.mem, pc := vm.pc, gas := vm.gas } c e.changesState = vm.apply c e.changesState := rfl
      rw [hx, hy]
      rcases ha : VM.apply vm c e.changesState with ⟨a, vm2⟩
      cases a with
      | forbidden => rfl
      | pageFault x => rfl
      | err x => rfl
      | gas post =>
        simp only []
        by_cases c1 : post < 0
        · rw [if_pos c1, if_pos c1]
        · rw [if_neg c1, if_neg c1]
          by_cases c2 : e = .cont
          · rw [if_pos c2, if_pos c2]
          · rw [if_neg c2, if_neg c2]

theorem ordinary_tiny {p : Prog} {vm : VM} {d : Nat} (hm : vm.mem = noMem) (h : Ordinary p vm d) : Ordinary p (onTiny vm) d := by
  obtain ⟨a, b, c⟩ := h
  refine ⟨?_, b, c⟩
  have : vm.mem.data.length = (onTiny vm).mem.data.length := by rw [hm]; rfl
  rw [← this]
  exact a

/-- An ordinary instruction is not heap growth. -/
theorem ordinary_sbrk {blob : List UInt8} {p : Prog} (h : loadProgram blob = .ok p) {vm : VM} {d : Nat} (ho : Ordinary p vm d) {ins : Instr}
    (hi : p.instructionAt vm.pc = some ins) : ins.op ≠ .sbrk := by
  intro hop
  have hreg0 := ho.regular
  obtain ⟨_, b, hb, hob⟩ := (loadProgram_loaded h).inst _ _ hi
  have hoct : Pvm.Paper.oct p.code vm.pc = b.toNat := by
    unfold Pvm.Paper.oct
    rw [List.getD_eq_getElem?_getD, hb]
    rfl
  unfold Pvm.Paper.effect at hreg0
  rw [hoct, inst_ofByte, ← hob, hop] at hreg0
  exact hreg0

theorem onTiny_paper {vm : VM} (hm : vm.mem = noMem) : (onTiny vm).paper = vm.paper := by
  unfold VM.paper
  rw [hm]
  rfl

/-- The steps of an inner run are the paper's. -/
theorem reaches_runs {blob : List UInt8} {p : Prog} (h : loadProgram blob = .ok p) (hc : p.code.length < 2 ^ 31) {k : Nat} {vm vm' : VM}
    (hr : Reaches p k vm vm') : vm.mem = noMem → vm.regs.length = 13 →
    (∀ j v d, Reaches p j vm v → IsSkip p.mask p.code.length v.pc d → Ordinary p v d) →
    Pvm.Paper.Runs p.code p.mask p.table ZONE k vm.paper vm'.paper ∧ vm'.regs.length = 13 ∧ vm'.mem = noMem := by
  induction hr with
  | done => intro hm hl _; exact ⟨.done, hl, hm⟩
  | step hd hit hr ih =>
    rename_i k vm vm1 vm2
    intro hm hl ho
    have hm1 : vm1.mem = noMem := by
      have := iter_noMem hm hd
      rwa [hit] at this
    have hl1 : vm1.regs.length = 13 := by
      have := (iter_effect p vm).1
      rw [hit] at this
      exact this.trans hl
    obtain ⟨r1, r2, r3⟩ := ih hm1 hl1 (fun j v d hj => ho (j + 1) v d (.step hd hit hj))
    refine ⟨?_, r2, r3⟩
    obtain ⟨hst, d, hsk, _⟩ := C13_step blob p h vm vm1 hit
    have h0 := ho 0 vm d .done hsk
    have hg : 1 ≤ vm.gas := by
      have := ((iter_spec p vm).1 vm1 hit)
      omega
    obtain ⟨out, s', hdoes, hret, _, hreg, hmem, hpc⟩ :=
      C50_step_partial blob p h (onTiny vm) d hg tiny_wf hl hc hst hsk (ordinary_tiny hm h0)
    rw [tiny_iter p vm hm (fun ins hi => ordinary_sbrk h h0 hi), hit] at hret hreg hmem hpc
    rw [onTiny_paper hm] at hdoes
    have hout : out = .cont := by
      cases out <;> simp only [Returns] at hret <;> try cases hret
      · rfl
      · rename_i hx; cases hx.1
    subst hout
    rw [onTiny_paper hm1] at hreg hmem
    have hs' : s' = vm1.paper := by
      obtain ⟨r, m, c⟩ := s'
      have h3 := hpc (.inl rfl)
      simp only [] at hreg hmem h3
      subst h3
      rw [← hreg, ← hmem]
      rfl
    subst hs'
    exact .step hst hsk hdoes r1

end Fastroll.Refine
