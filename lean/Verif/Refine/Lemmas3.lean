import Verif.Refine.Lemmas2
import Verif.Pvm.StepLemmas4

/-! Lemmas: running an inner machine. -/
namespace Fastroll.Refine
open Fastroll.Pvm Fastroll.Svc
open Paper (CanRead CanWrite octets PMem.wrote Answers)

theorem noMem_write (a : Nat) (bs : Bytes) : (noMem.writeBytes a bs).2 = noMem := by
  unfold Mem.writeBytes
  split
  · rfl
  · rename_i h
    unfold Mem.validate
    by_cases c : a < noMem.zone
    · rw [if_pos c]
    · rw [if_neg c]
      dsimp only
      rw [if_pos (by simp [noMem]; omega)]

/-- What applying a state change can do to a machine. -/
theorem apply_effect (vm : VM) (c : Change) (b : Bool) :
    (vm.apply c b).2.regs.length = vm.regs.length ∧
    ((vm.apply c b).2.mem = vm.mem ∨ ∃ a bs, (vm.apply c b).2.mem = (vm.mem.writeBytes a bs).2) ∧
    (b = false → (vm.apply c b).2 = { vm with gas := (vm.apply c b).2.gas }) := by
  unfold VM.apply
  rcases charge_spec vm INST_GAS.toNat with ⟨e', h'⟩ | ⟨_, h'⟩
  · rw [h']
    exact ⟨rfl, .inl rfl, fun _ => rfl⟩
  · rw [h']
    simp only []
    split
    · exact ⟨rfl, .inl rfl, fun _ => rfl⟩
    · rename_i hb
      have hbt : b = false → False := by
        intro e; subst e; exact hb (.inr rfl)
      cases hm : c.mem with
      | none =>
        simp only []
        cases c.reg with
        | none => exact ⟨rfl, .inl rfl, fun e => (hbt e).elim⟩
        | some iv => exact ⟨by simp, .inl rfl, fun e => (hbt e).elim⟩
      | some ob =>
        simp only []
        split
        · exact ⟨rfl, .inl rfl, fun e => (hbt e).elim⟩
        · rcases hw : vm.mem.writeBytes ob.1 ob.2 with ⟨r, m⟩
          have hm2 : m = (vm.mem.writeBytes ob.1 ob.2).2 := by rw [hw]
          cases r with
          | ok u =>
            simp only []
            cases c.reg with
            | none => exact ⟨rfl, .inr ⟨_, _, hm2⟩, fun e => (hbt e).elim⟩
            | some iv => exact ⟨by simp, .inr ⟨_, _, hm2⟩, fun e => (hbt e).elim⟩
          | error e =>
            cases e <;> exact ⟨rfl, .inr ⟨_, _, hm2⟩, fun e => (hbt e).elim⟩

/-- What one iteration can do to a machine. -/
theorem iter_effect (p : Prog) (vm : VM) :
    (iter p vm).2.regs.length = vm.regs.length ∧
    (∀ h, (iter p vm).1 = some (.ok (.hostCall h)) → (iter p vm).2.pc = vm.pc ∧ ∃ ins, p.instructionAt vm.pc = some ins) := by
  unfold iter
  cases hi : p.instructionAt vm.pc with
  | none => exact ⟨rfl, fun h e => by cases e⟩
  | some ins =>
    simp only []
    rcases hs : singleStep vm p ins with ⟨r, m⟩
    cases r with
    | error e => exact ⟨rfl, fun h e => by cases e⟩
    | ok ec =>
      obtain ⟨e, c⟩ := ec
      simp only []
      obtain ⟨h1, _, h3⟩ := apply_effect { vm with mem := m } c e.changesState
      rcases ha : VM.apply { vm with mem := m } c e.changesState with ⟨a, vm2⟩
      rw [ha] at h1 h3
      simp only [] at h1 h3
      cases a with
      | forbidden => exact ⟨h1, fun h e => by cases e⟩
      | pageFault x => exact ⟨h1, fun h e => by cases e⟩
      | err x => exact ⟨h1, fun h e => by cases e⟩
      | gas post =>
        simp only []
        by_cases c1 : post < 0
        · rw [if_pos c1]; exact ⟨h1, fun h e => by cases e⟩
        · rw [if_neg c1]
          by_cases c2 : e = .cont
          · rw [if_pos c2]; exact ⟨h1, fun h e => by cases e⟩
          · rw [if_neg c2]
            refine ⟨h1, fun h he => ?_⟩
            injection he with he
            injection he with he
            subst he
            have := h3 rfl
            exact ⟨by rw [this], ins, rfl⟩

theorem noMem_sbrk (n : Nat) (h : n % 2 ^ 32 = 0) : noMem.sbrk n = (.ok 0, noMem) := by
  have hb : noMem.getBreak n = 0 := by
    unfold Mem.getBreak Mem.getBreakLoop
    have : (noMem.rangeReadable noMem.heapEnd n && !noMem.rangeWritable noMem.heapEnd n) = false := by
      unfold Mem.rangeReadable Mem.rangeWritable Mem.rangeTest
      by_cases c : n = 0
      · rw [if_pos c, if_pos c]; rfl
      · rw [if_neg c, if_pos (by simp [noMem])]; rfl
    rw [this]
    rfl
  unfold Mem.sbrk
  simp only [hb]
  unfold Mem.expandHeap
  simp only [h]
  rfl

theorem divides_sbrk {p : Prog} {vm : VM} {ins : Instr} (hi : p.instructionAt vm.pc = some ins) (hop : ins.op = .sbrk)
    (hm : vm.mem = noMem) : divides p vm = decide ((vm.r ins.rs1).toNat % 2 ^ 32 ≠ 0) := by
  have hb : vm.mem.getBreak (vm.r ins.rs1).toNat = 0 := by
    rw [hm]
    unfold Mem.getBreak Mem.getBreakLoop
    have : (noMem.rangeReadable noMem.heapEnd (vm.r ins.rs1).toNat && !noMem.rangeWritable noMem.heapEnd (vm.r ins.rs1).toNat) = false := by
      unfold Mem.rangeReadable Mem.rangeWritable Mem.rangeTest
      by_cases c : (vm.r ins.rs1).toNat = 0
      · rw [if_pos c, if_pos c]; rfl
      · rw [if_neg c, if_pos (by simp [noMem])]; rfl
    rw [this]
    rfl
  unfold divides
  rw [hi]
  simp only []
  rw [if_pos ⟨hop, by rw [hm]; rfl⟩]
  simp only [hb]
  rw [hm]
  have : (0 + (vm.r ins.rs1).toNat % 2 ^ 32) % 2 ^ 32 = (vm.r ins.rs1).toNat % 2 ^ 32 := by omega
  rw [this]
  generalize (vm.r ins.rs1).toNat % 2 ^ 32 = k
  have h0 : noMem.heapStart = 0 := rfl
  rw [h0]
  by_cases c : k = 0
  · subst c; rfl
  · have : 0 < k := by omega
    simp [c, this]

/-- Without a page size, an iteration that does not divide by it leaves the machine without memory. -/
theorem iter_noMem {p : Prog} {vm : VM} (hm : vm.mem = noMem) (hd : divides p vm = false) : (iter p vm).2.mem = noMem := by
  unfold iter
  cases hi : p.instructionAt vm.pc with
  | none => exact hm
  | some ins =>
    simp only []
    have hsm : (singleStep vm p ins).2 = noMem := by
      by_cases hop : ins.op = .sbrk
      · rw [divides_sbrk hi hop hm] at hd
        have hz : (vm.r ins.rs1).toNat % 2 ^ 32 = 0 := by
          simpa using hd
        unfold singleStep
        rw [hop]
        simp only []
        rw [hm, noMem_sbrk _ hz]
      · rw [singleStep_mem hop, hm]
    rcases hs : singleStep vm p ins with ⟨r, m⟩
    rw [hs] at hsm
    simp only [] at hsm
    subst hsm
    cases r with
    | error e => rfl
    | ok ec =>
      obtain ⟨e, c⟩ := ec
      simp only []
      obtain ⟨_, h2, _⟩ := apply_effect { vm with mem := noMem } c e.changesState
      have h2' : (VM.apply { vm with mem := noMem } c e.changesState).2.mem = noMem := by
        rcases h2 with h | ⟨a, bs, h⟩
        · exact h
        · rw [h]; exact noMem_write a bs
      rcases ha : VM.apply { vm with mem := noMem } c e.changesState with ⟨a, vm2⟩
      rw [ha] at h2'
      cases a with
      | forbidden => exact h2'
      | pageFault x => exact h2'
      | err x => exact h2'
      | gas post =>
        simp only []
        by_cases c1 : post < 0
        · rw [if_pos c1]; exact h2'
        · rw [if_neg c1]
          by_cases c2 : e = .cont
          · rw [if_pos c2]; exact h2'
          · rw [if_neg c2]; exact h2'

/-- Facts about a finished inner run. -/
theorem runInner_facts (p : Prog) : ∀ n vm r vm', runInner p n vm = (r, vm') →
    vm'.regs.length = vm.regs.length ∧ (vm.mem = noMem → r ≠ none → vm'.mem = noMem) ∧
    (∀ h, r = some (.ok (.hostCall h)) → ∃ ins, p.instructionAt vm'.pc = some ins) ∧
    r ≠ some (.ok .cont) := by
  intro n
  induction n with
  | zero => intro vm r vm' h; cases h; exact ⟨rfl, fun h _ => h, fun h e => (by cases e), fun e => (by cases e)⟩
  | succ n ih =>
    intro vm r vm' h
    unfold runInner at h
    by_cases hd : divides p vm = true
    · rw [if_pos hd] at h
      cases h
      exact ⟨rfl, fun _ h => absurd rfl h, fun h e => (by cases e), fun e => (by cases e)⟩
    · have hd' : divides p vm = false := by simpa using hd
      rw [if_neg hd] at h
      have h1 := iter_effect p vm
      have h2 := fun hm => iter_noMem (p := p) (vm := vm) hm hd'
      have h3 := (iter_spec p vm).2
      rcases hit : iter p vm with ⟨o, vm1⟩
      rw [hit] at h h1 h2
      simp only [] at h1 h2
      cases o with
      | none =>
        simp only [] at h
        obtain ⟨a, b, c, d⟩ := ih vm1 r vm' h
        exact ⟨a.trans h1.1, fun hm => b (h2 hm), c, d⟩
      | some r1 =>
        simp only [] at h
        cases h
        refine ⟨h1.1, fun hm _ => h2 hm, fun k e => ?_, fun e => ?_⟩
        · obtain ⟨e1, ins, e2⟩ := h1.2 k e
          exact ⟨ins, by rw [e1]; exact e2⟩
        · injection e with e
          exact (h3 _ _ hit).2.2.2 e

/-- The iteration bound is never what ends an inner run. -/
theorem runInner_fuel (p : Prog) : ∀ (n : Nat) (vm : VM), vm.gas < (n : Int) → -1 ≤ vm.gas → ∀ m,
    runInner p (n + 1) vm = runInner p (n + 1 + m) vm := by
  intro n
  induction n with
  | zero =>
    intro vm h1 h2 m
    have key : ∀ k, runInner p (k + 1) vm =
        if divides p vm then (none, vm) else match iter p vm with | (none, vm') => runInner p k vm' | (some r, vm') => (some r, vm') := fun k => rfl
    rw [show 0 + 1 + m = m + 1 by omega, key, key]
    rcases hit : iter p vm with ⟨o, vm1⟩
    cases o with
    | some r => rfl
    | none =>
      have := (iter_spec p vm).1 vm1 hit
      omega
  | succ n ih =>
    intro vm h1 h2 m
    have key : ∀ k, runInner p (k + 1) vm =
        if divides p vm then (none, vm) else match iter p vm with | (none, vm') => runInner p k vm' | (some r, vm') => (some r, vm') := fun k => rfl
    rw [show n + 1 + 1 + m = (n + 1 + m) + 1 by omega, key, key]
    rcases hit : iter p vm with ⟨o, vm1⟩
    cases o with
    | some r => rfl
    | none =>
      have := (iter_spec p vm).1 vm1 hit
      simp only []
      rw [ih vm1 (by omega) (by omega) m]

end Fastroll.Refine
