import Verif.Pvm.InterpLemmas
import Verif.Codec.Lemmas2
/-! Lemmas about loaded programs and single iterations of the interpreter. -/
namespace Fastroll.Pvm

/-- What loading guarantees. -/
structure Loaded (p : Prog) : Prop where
  maskLen : p.mask.length = p.code.length
  skipLen : p.skips.length = p.code.length
  skip : ∀ i d : Nat, p.skips[i]? = some d → IsSkip p.mask p.code.length i d
  inst : ∀ i ins, p.instructionAt i = some ins →
    StartsAt p.mask i ∧ ∃ b, p.code[i]? = some b ∧ ins.op = Op.ofByte b.toNat
  decode : ∀ i ins d, p.instructionAt i = some ins → IsSkip p.mask p.code.length i d →
    fromBlob ((p.code.drop i).take (d + 1)) i d = .ok ins
  start : ∀ i, StartsAt p.mask i → ∃ ins, p.instructionAt i = some ins
  blocks : ∀ t, bitAt p.blocks t = true ↔ t ≤ p.code.length ∧ (t = 0 ∨ ∃ m d, 1 ≤ m ∧ StartsAt p.mask m ∧
    EndsBlock p.code m ∧ IsSkip p.mask p.code.length m d ∧ t = m + 1 + d)

theorem loadParts_loaded {code : List UInt8} {mask : List Bool} {table : List Nat} {p : Prog}
    (hlen : mask.length = code.length) (h : loadParts code mask table = .ok p) :
    Loaded p ∧ p.code = code ∧ p.mask = mask ∧ p.table = table := by
  unfold loadParts at h
  simp only [] at h
  split at h
  · cases h
  · rename_i decoded lookup hdec
    cases h
    obtain ⟨s1, s2⟩ := skipDistances_spec mask code.length
    obtain ⟨d1, d2, d3, d4⟩ := decodeLoop_spec code (skipDistances mask code.length) mask 0 [] _ _ _ hdec
      (by simp) (by omega) (by intro i k hik; rw [List.getElem?_replicate] at hik; split at hik <;> cases hik)
      (by intro i _ hc; rw [List.getElem?_replicate, if_pos hc])
    refine ⟨?_, rfl, rfl, rfl⟩
    have hstart : ∀ i, StartsAt mask i → ∃ ins, lookAt decoded lookup i = some ins ∧
        decodeAt code (skipDistances mask code.length) i = .ok ins := by
      intro i hi
      have := d3 i true hi
      simp only [if_true, Nat.zero_add] at this
      obtain ⟨ins, h1, h2⟩ := this
      exact ⟨ins, h2, h1⟩
    have hinst : ∀ i ins, lookAt decoded lookup i = some ins → StartsAt mask i ∧
        (∃ b, code[i]? = some b ∧ ins.op = Op.ofByte b.toNat) ∧
        ∃ d, IsSkip mask code.length i d ∧ fromBlob ((code.drop i).take (d + 1)) i d = .ok ins := by
      intro i ins hi
      by_cases hlt : i < mask.length
      · obtain ⟨b, hb⟩ : ∃ b, mask[i]? = some b := ⟨mask[i], List.getElem?_eq_getElem hlt⟩
        have hd := d3 i b hb
        cases b with
        | false =>
          simp only [Bool.false_eq_true, if_false, Nat.zero_add] at hd
          rw [hi] at hd; cases hd
        | true =>
          refine ⟨hb, ?_⟩
          simp only [if_true, Nat.zero_add] at hd
          obtain ⟨ins', hdec', hl'⟩ := hd
          rw [hi] at hl'; cases hl'
          obtain ⟨d, hd⟩ : ∃ d, (skipDistances mask code.length)[i]? = some d :=
            ⟨(skipDistances mask code.length)[i]'(by omega), List.getElem?_eq_getElem (by omega)⟩
          have hs := s2 i d hd
          unfold decodeAt at hdec'
          rw [hd, Option.getD_some, if_neg (by have := hs.inside; omega)] at hdec'
          obtain ⟨b, hb0, hop⟩ := fromBlob_op hdec'
          refine ⟨⟨b, ?_, hop⟩, d, hs, by rw [show d + 1 = i + 1 + d - i by omega]; exact hdec'⟩
          rw [List.getElem?_take, if_pos (by omega), List.getElem?_drop] at hb0
          simpa using hb0
      · have := d4 i (by omega)
        rw [hi] at this; cases this
    refine ⟨hlen, s1, s2, fun i ins h => ⟨(hinst i ins h).1, (hinst i ins h).2.1⟩, ?_, fun i hi => ?_, ?_⟩
    · intro i ins d hi hd
      obtain ⟨_, _, d', h1, h2⟩ := hinst i ins hi
      have := h1.unique hd
      subst this
      exact h2
    · obtain ⟨ins, h1, _⟩ := hstart i hi
      exact ⟨ins, h1⟩
    · intro t
      simp only []
      obtain ⟨b1, b2⟩ := blocksLoop_spec
        { code, mask, table, skips := skipDistances mask code.length, decoded, lookup, blocks := List.replicate (code.length + 1) false }
        (code.length - 1) 1 ((List.replicate (code.length + 1) false).set 0 true)
      by_cases ht : t ≤ code.length
      · rw [b2 t (by simp; omega)]
        have h0 : bitAt ((List.replicate (code.length + 1) false).set 0 true) t = true ↔ t = 0 := by
          rw [bitAt_iff, List.getElem?_set]
          by_cases h : 0 = t
          · simp [← h]
          · rw [if_neg h, List.getElem?_replicate, if_pos (by omega)]
            simp; omega
        rw [h0]
        have hterm : ∀ (m : Nat) (b : UInt8), (Op.ofByte b.toNat).terminates = true ↔
            b.toNat ∈ terminatorBytes ∨ b.toNat ∉ opcodeBytes :=
          fun m b => terminates_iff b.toNat b.toNat_lt
        constructor
        · rintro (h | ⟨m, ins, h1, h2, h3, h4, h5, h6⟩)
          · exact ⟨ht, .inl h⟩
          · refine ⟨ht, .inr ?_⟩
            obtain ⟨hs, ⟨b, hb, hop⟩, _⟩ := hinst m ins h4
            obtain ⟨d, hd⟩ : ∃ d, (skipDistances mask code.length)[m]? = some d :=
              ⟨(skipDistances mask code.length)[m]'(by omega), List.getElem?_eq_getElem (by omega)⟩
            refine ⟨m, d, h1, hs, ⟨b, hb, (hterm m b).1 (by rw [← hop]; exact h5)⟩, s2 m d hd, ?_⟩
            simpa [hd] using h6
        · rintro ⟨_, h | ⟨m, d, h1, h2, ⟨b, hb, hbt⟩, h4, h5⟩⟩
          · exact .inl h
          · right
            have hmlt : m < code.length := by
              rw [← hlen]; exact (List.getElem?_eq_some_iff.1 h2).1
            obtain ⟨ins, hi, _⟩ := hstart m h2
            obtain ⟨_, ⟨b', hb', hop⟩, _⟩ := hinst m ins hi
            rw [hb] at hb'; cases hb'
            obtain ⟨d', hd⟩ : ∃ d, (skipDistances mask code.length)[m]? = some d :=
              ⟨(skipDistances mask code.length)[m]'(by omega), List.getElem?_eq_getElem (by omega)⟩
            have := (s2 m d' hd).unique h4
            subst this
            refine ⟨m, ins, h1, by omega, bitAt_iff.2 h2, hi, ?_, ?_⟩
            · rw [hop]; exact (hterm m b).2 hbt
            · simpa [hd] using h5
      · constructor
        · intro h
          rw [bitAt_iff] at h
          have := (List.getElem?_eq_some_iff.1 h).1
          rw [b1] at this
          simp at this
          omega
        · rintro ⟨h, _⟩; exact absurd h ht

theorem unpackLoop_length (size : Nat) : ∀ n acc inp out rest, acc.length ≤ size →
    Codec.unpackLoop size n acc inp = .ok (out, rest) → out.length = min size (acc.length + 8 * n) := by
  intro n
  induction n with
  | zero =>
    intro acc inp out rest hacc h
    simp only [Codec.unpackLoop, Codec.Dec.pure, Except.ok.injEq, Prod.mk.injEq] at h
    obtain ⟨rfl, _⟩ := h
    omega
  | succ n ih =>
    intro acc inp out rest hacc h
    simp only [Codec.unpackLoop, Codec.Dec.bind] at h
    split at h
    · cases h
    · rename_i b r hb
      have hl : (Codec.pushBits size b acc).length = min size (acc.length + 8) := by
        rw [Codec.pushBits_eq]
        simp [Codec.byteBits]
        omega
      rw [ih _ _ _ _ (by omega) h, hl]
      omega

theorem deblob_lengths {blob code : List UInt8} {mask : List Bool} {table : List Nat}
    (h : deblob blob = .ok (code, mask, table)) : mask.length = code.length := by
  unfold deblob at h
  repeat' split at h
  all_goals first
    | (cases h; done)
    | skip
  rename_i m rest hbits hrest
  cases h
  have := unpackLoop_length _ _ _ _ _ _ (Nat.zero_le _) hbits
  simp only [List.length_take, List.length_nil] at *
  omega

theorem loadProgram_loaded {blob : List UInt8} {p : Prog} (h : loadProgram blob = .ok p) : Loaded p := by
  unfold loadProgram at h
  split at h
  · cases h
  · rename_i code mask table hd
    exact (loadParts_loaded (deblob_lengths hd) h).1

/-! ### Single steps -/

theorem Loaded.skipAt {p : Prog} (h : Loaded p) {i : Nat} (hs : StartsAt p.mask i) :
    ∃ d, p.skips[i]? = some d ∧ IsSkip p.mask p.code.length i d := by
  have hlt : i < p.skips.length := by
    rw [h.skipLen, ← h.maskLen]; exact (List.getElem?_eq_some_iff.1 hs).1
  exact ⟨p.skips[i], List.getElem?_eq_getElem hlt, h.skip _ _ (List.getElem?_eq_getElem hlt)⟩

/-- Where a step may send control: the next instruction (never past a terminator without a branch
condition), a marked block start, or nowhere. -/
structure Flow (p : Prog) (vm : VM) (ins : Instr) (e : Exit) (c : Change) : Prop where
  cont : e = .cont → c.newPc = p.nextPc vm.pc ∨ (ins.op.terminates = true ∧ bitAt p.blocks c.newPc = true)
  noOog : e ≠ .outOfGas

theorem branchTo_flow (p : Prog) (pc t : Nat) (b : Bool) :
    ((branchTo p pc t b).1 = .cont → (branchTo p pc t b).2 = p.nextPc pc ∨ bitAt p.blocks (branchTo p pc t b).2 = true)
      ∧ (branchTo p pc t b).1 ≠ .outOfGas := by
  unfold branchTo
  cases b
  · simp
  · simp only [if_true]
    split
    · rename_i hb; simp [hb]
    · simp

theorem djump_flow {p : Prog} {pc a : Nat} {r : Exit × Nat} (h : djump p pc a = .ok r) :
    (r.1 = .cont → bitAt p.blocks r.2 = true) ∧ r.1 ≠ .outOfGas := by
  unfold djump at h
  split at h
  · cases h; simp
  · split at h
    · cases h; simp
    · split at h
      · cases h
      · split at h
        · rename_i hb; cases h; simp [hb]
        · cases h; simp

theorem loadStep_flow {vm : VM} {p : Prog} {a : Nat} {k : LoadK} {rd : Nat} {f : Nat → Reg} {e : Exit} {c : Change}
    (h : loadStep vm p a k rd f = .ok (e, c)) : (e = .cont → c.newPc = p.nextPc vm.pc) ∧ e ≠ .outOfGas := by
  unfold loadStep at h
  split at h <;> cases h <;> simp

theorem singleStep_flow {vm : VM} {p : Prog} {ins : Instr} {e : Exit} {c : Change} {m : Mem}
    (h : singleStep vm p ins = (.ok (e, c), m)) : Flow p vm ins e c := by
  unfold singleStep at h
  cases hop : ins.op <;> simp only [hop, Prod.mk.injEq, Except.ok.injEq] at h
  case sbrk =>
    split at h
    · simp at h
    · simp only [Prod.mk.injEq, Except.ok.injEq] at h
      obtain ⟨⟨rfl, rfl⟩, _⟩ := h
      exact ⟨fun _ => .inl rfl, by simp⟩
  case load k =>
    have := loadStep_flow h.1
    exact ⟨fun h => .inl (this.1 h), this.2⟩
  case loadInd k =>
    have := loadStep_flow h.1
    exact ⟨fun h => .inl (this.1 h), this.2⟩
  case jump =>
    obtain ⟨⟨rfl, rfl⟩, _⟩ := h
    have := branchTo_flow p vm.pc (addr32 ins.imm1) true
    exact ⟨fun h => (this.1 h).imp id (fun h => ⟨by simp [hop, Op.terminates], h⟩), this.2⟩
  case loadImmJump =>
    obtain ⟨⟨rfl, rfl⟩, _⟩ := h
    have := branchTo_flow p vm.pc (addr32 ins.imm2) true
    exact ⟨fun h => (this.1 h).imp id (fun h => ⟨by simp [hop, Op.terminates], h⟩), this.2⟩
  case branchImm cc =>
    obtain ⟨⟨rfl, rfl⟩, _⟩ := h
    have := branchTo_flow p vm.pc (addr32 ins.imm2) (cc.eval (vm.r ins.rs1) ins.imm1)
    exact ⟨fun h => (this.1 h).imp id (fun h => ⟨by simp [hop, Op.terminates], h⟩), this.2⟩
  case branch cc =>
    obtain ⟨⟨rfl, rfl⟩, _⟩ := h
    have := branchTo_flow p vm.pc (addr32 ins.imm1) (cc.eval (vm.r ins.rs1) (vm.r ins.rs2))
    exact ⟨fun h => (this.1 h).imp id (fun h => ⟨by simp [hop, Op.terminates], h⟩), this.2⟩
  case jumpInd =>
    obtain ⟨h, _⟩ := h
    split at h
    · cases h
    · rename_i r hr
      cases h
      have := djump_flow hr
      exact ⟨fun h => .inr ⟨by simp [hop, Op.terminates], this.1 h⟩, this.2⟩
  case loadImmJumpInd =>
    obtain ⟨h, _⟩ := h
    split at h
    · cases h
    · rename_i r hr
      cases h
      have := djump_flow hr
      exact ⟨fun h => .inr ⟨by simp [hop, Op.terminates], this.1 h⟩, this.2⟩
  all_goals
    obtain ⟨⟨rfl, rfl⟩, _⟩ := h
    exact ⟨by simp, by simp⟩

theorem charge_spec (vm : VM) (n : Nat) :
    (∃ e, vm.charge n = (.error e, vm)) ∨
      (n < 2 ^ 63 ∧ vm.charge n = (.ok (vm.gas - n), { vm with gas := vm.gas - n })) := by
  unfold VM.charge
  split
  · exact .inl ⟨_, rfl⟩
  · split
    · exact .inl ⟨_, rfl⟩
    · exact .inr ⟨by omega, rfl⟩

/-- What applying a change does to gas and control. -/
theorem apply_spec (vm : VM) (c : Change) (should : Bool) :
    (∃ e, vm.apply c should = (.err e, vm)) ∨
      ((vm.apply c should).2.gas = vm.gas - 1 ∧
        ∀ post, (vm.apply c should).1 = .gas post → post = vm.gas - 1 ∧
          (0 ≤ post → should = true → (vm.apply c should).2.pc = c.newPc)) := by
  unfold VM.apply
  rcases charge_spec vm INST_GAS.toNat with ⟨e, h⟩ | ⟨_, h⟩
  · rw [h]; exact .inl ⟨e, rfl⟩
  · right
    rw [h]
    have h1 : (INST_GAS.toNat : Int) = 1 := rfl
    simp only [h1]
    split
    · rename_i hc
      refine ⟨rfl, fun post hp => ?_⟩
      simp only [Applied.gas.injEq] at hp
      subst hp
      refine ⟨rfl, fun h0 hs => ?_⟩
      rw [hs] at hc
      simp at hc
      omega
    · cases hm : c.mem with
      | none =>
        simp only []
        cases hr : c.reg with
        | none =>
          refine ⟨rfl, fun post hp => ?_⟩
          simp only [Applied.gas.injEq] at hp
          exact ⟨hp.symm, fun _ _ => rfl⟩
        | some iv =>
          refine ⟨rfl, fun post hp => ?_⟩
          simp only [Applied.gas.injEq] at hp
          exact ⟨hp.symm, fun _ _ => rfl⟩
      | some w =>
        obtain ⟨off, bytes⟩ := w
        simp only []
        split
        · exact ⟨rfl, fun post hp => by cases hp⟩
        · split
          · cases hr : c.reg with
            | none =>
              refine ⟨rfl, fun post hp => ?_⟩
              simp only [Applied.gas.injEq] at hp
              exact ⟨hp.symm, fun _ _ => rfl⟩
            | some iv =>
              refine ⟨rfl, fun post hp => ?_⟩
              simp only [Applied.gas.injEq] at hp
              exact ⟨hp.symm, fun _ _ => rfl⟩
          · exact ⟨rfl, fun post hp => by cases hp⟩
          · exact ⟨rfl, fun post hp => by cases hp⟩

/-- One iteration: what happens to the gas counter and to control. -/
theorem iter_spec (p : Prog) (vm : VM) :
    (∀ vm', iter p vm = (none, vm') → vm'.gas = vm.gas - 1 ∧ 0 ≤ vm'.gas ∧
      ∃ ins, p.instructionAt vm.pc = some ins ∧
        (vm'.pc = p.nextPc vm.pc ∨ (ins.op.terminates = true ∧ bitAt p.blocks vm'.pc = true))) ∧
    (∀ r vm', iter p vm = (some r, vm') → (vm'.gas = vm.gas ∨ vm'.gas = vm.gas - 1) ∧
      (r = .ok .outOfGas → vm'.gas = vm.gas - 1 ∧ vm'.gas < 0) ∧
      (∀ h, r = .ok (.hostCall h) → vm'.gas = vm.gas - 1 ∧ 0 ≤ vm'.gas) ∧ r ≠ .ok .cont) := by
  unfold iter
  cases hi : p.instructionAt vm.pc with
  | none =>
    refine ⟨fun vm' h => (by cases h), fun r vm' h => ?_⟩
    cases h
    exact ⟨.inl rfl, fun h => (by cases h), fun _ h => (by cases h), fun h => (by cases h)⟩
  | some ins =>
    simp only []
    rcases hs : singleStep vm p ins with ⟨r, m⟩
    cases r with
    | error e =>
      refine ⟨fun vm' h => (by cases h), fun r vm' h => ?_⟩
      cases h
      exact ⟨.inl rfl, fun h => (by cases h), fun _ h => (by cases h), fun h => (by cases h)⟩
    | ok ec =>
      obtain ⟨exit, change⟩ := ec
      have hflow := singleStep_flow hs
      simp only []
      generalize hsh : exit.changesState = should
      have hap := apply_spec { vm with mem := m } change should
      rcases hr : VM.apply { vm with mem := m } change should with ⟨a, vm2⟩
      rw [hr] at hap
      rcases hap with ⟨e, he⟩ | ⟨hgas, hpost⟩
      · cases he
        refine ⟨fun vm' h => (by cases h), fun r vm' h => ?_⟩
        cases h
        exact ⟨.inl rfl, fun h => (by cases h), fun _ h => (by cases h), fun h => (by cases h)⟩
      · simp only [] at hgas hpost
        cases a with
        | forbidden =>
          refine ⟨fun vm' h => (by cases h), fun r vm' h => ?_⟩
          cases h
          exact ⟨.inr hgas, fun h => (by cases h), fun _ h => (by cases h), fun h => (by cases h)⟩
        | pageFault a =>
          refine ⟨fun vm' h => (by cases h), fun r vm' h => ?_⟩
          cases h
          exact ⟨.inr hgas, fun h => (by cases h), fun _ h => (by cases h), fun h => (by cases h)⟩
        | err e =>
          refine ⟨fun vm' h => (by cases h), fun r vm' h => ?_⟩
          cases h
          exact ⟨.inr hgas, fun h => (by cases h), fun _ h => (by cases h), fun h => (by cases h)⟩
        | gas post =>
          obtain ⟨hp1, hp2⟩ := hpost post rfl
          simp only []
          by_cases hneg : post < 0
          · simp only [hneg, if_true]
            refine ⟨fun vm' h => (by cases h), fun r vm' h => ?_⟩
            cases h
            exact ⟨.inr hgas, fun _ => ⟨hgas, by omega⟩, fun _ h => (by cases h), fun h => (by cases h)⟩
          · simp only [hneg, if_false]
            by_cases hc : exit = .cont
            · simp only [hc, if_true]
              refine ⟨fun vm' h => ?_, fun r vm' h => (by cases h)⟩
              cases h
              refine ⟨hgas, by omega, ins, rfl, ?_⟩
              rw [hp2 (by omega) (by rw [← hsh, hc]; rfl)]
              exact hflow.cont hc
            · simp only [hc, if_false]
              refine ⟨fun vm' h => (by cases h), fun r vm' h => ?_⟩
              cases h
              refine ⟨.inr hgas, fun h => ?_, fun x h => ?_, fun h => ?_⟩
              · cases h; exact absurd rfl hflow.noOog
              · exact ⟨hgas, by omega⟩
              · cases h; exact hc rfl

end Fastroll.Pvm
