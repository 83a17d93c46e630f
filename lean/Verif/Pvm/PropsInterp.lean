import Verif.Pvm.InterpLemmas3
/-!
# C12 and C13: gas bounds every execution; control only reaches block starts
-/
namespace Fastroll.Pvm

/-- A loop counting register 1 down from 3, then a dynamic jump through register 0. -/
def countBlob : List UInt8 :=
  [0, 1, 13, 51, 1, 3, 1, 149, 0x11, 0xFF, 82, 0x11, 0, 0xFD, 50, 0, 153, 8]

def countProg : Prog :=
  match loadProgram countBlob with
  | .ok p => p
  | .error _ => { code := [], mask := [], table := [], skips := [], decoded := [], lookup := [], blocks := [] }

/-- Three four-byte pages, the first two forbidden, the third writable. -/
def countVM (gas : Int) : VM :=
  { regs := [0xFFFF0000#64] ++ List.replicate 12 0,
    mem := { data := List.replicate 24 0, acc := [.inaccessible, .inaccessible, .readWrite, .inaccessible, .inaccessible, .inaccessible],
             pageSize := 4, zone := 8, heapStart := 8, heapEnd := 12, stackStart := 24 },
    pc := 0, gas }

example : loadProgram countBlob = .ok countProg ∧ countProg.decoded.length = 5 ∧
    countProg.blocks = [true, false, false, false, true, false, false, false, false, false, false, true, false, true] := by
  decide

/-! ## C12 -/

/-- **Termination.** Whatever the program, registers and memory, the interpreter loop returns after at
most `gas + 1` instructions, leaving no more gas than it started with and at least `-1`. More
iterations would not change the result. -/
theorem C12_terminates (p : Prog) (vm : VM) :
    ∃ r vm', (∀ k, runFuel p (vm.gas.toNat + 1 + k) vm = (some r, vm')) ∧
      vm'.gas ≤ vm.gas ∧ (0 ≤ vm.gas → -1 ≤ vm'.gas) := by
  obtain ⟨r, vm', h⟩ := runFuel_terminates p vm (vm.gas.toNat + 1) (by omega)
  obtain ⟨h1, h2, _⟩ := runFuel_some _ _ _ _ h
  exact ⟨r, vm', fun k => runFuel_mono _ k _ _ _ h, h1, fun _ => by omega⟩

/-- The countdown halts after nine instructions, with one unit left of ten. -/
example : (runFuel countProg 11 (countVM 10)).1 = some (.ok .halt) ∧ (runFuel countProg 11 (countVM 10)).2.gas = 1 ∧
    (runFuel countProg 8 (countVM 10)).1 = none := by decide

/-- **Exact charge.** `n` instructions that all let the program continue cost exactly `n`; so a program
that is still running after `n` instructions was given at least `n` gas. -/
theorem C12_charge_exact (p : Prog) (n : Nat) (vm vm' : VM) (h : runFuel p n vm = (none, vm')) :
    vm'.gas = vm.gas - n ∧ (0 < n → (n : Int) ≤ vm.gas) := by
  obtain ⟨h1, h2⟩ := runFuel_none n vm vm' h
  exact ⟨h1, fun hn => by have := h2 hn; omega⟩

example : ∃ vm', runFuel countProg 8 (countVM 10) = (none, vm') ∧ vm'.gas = 2 := ⟨_, rfl, by decide⟩

/-- **Out of gas** is reported only when the counter is negative, and never otherwise: a run that ends
with `OutOfGas` ends below zero. -/
theorem C12_out_of_gas (p : Prog) (n : Nat) (vm vm' : VM) (h : runFuel p n vm = (some (.ok .outOfGas), vm')) :
    vm'.gas < 0 :=
  (runFuel_some n vm _ vm' h).2.2.1 rfl

example : (runFuel countProg 6 (countVM 5)).1 = some (.ok .outOfGas) := by decide

/-- **Termination with host calls.** For every table of host functions, whatever they answer and
charge, execution finishes within `gas + 1` host calls of at most `gas + 1` instructions each, and
gas never increases. -/
theorem C12_host_calls_terminate {σ : Type} (p : Prog) (host : Host σ) (vm : VM) (s : σ) :
    (∃ r, (extRun p host (vm.gas.toNat + 1) (vm.gas.toNat + 1) vm s).1 = .done r) ∧
      (extRun p host (vm.gas.toNat + 1) (vm.gas.toNat + 1) vm s).2.1.gas ≤ vm.gas :=
  extRun_spec p host _ _ vm s (by omega) (by omega)

/-- A program that calls host function 7 for ever. -/
def hostLoop : Prog :=
  match loadParts [1, 10, 7, 40, 0xFE] [true, true, false, true, false] [] with
  | .ok p => p
  | .error _ => countProg

/-- A host that counts its calls and charges nothing. -/
def countingHost : Host Nat := fun _ _ s => (.ok { exit := .cont, charge := 0 }, s + 1)

example : (extRun hostLoop countingHost 10 10 (countVM 9) 0).1 = .done (.ok .panic) := by decide

theorem extRun_gas_used {σ : Type} (p : Prog) (host : Host σ) (vm : VM) (limit pc : Nat) (s s' : σ) (out : Output)
    (used : Nat) (hl : limit < 2 ^ 64) (h : invokeWithArgs p host (some vm) pc limit s = (.ok (out, used), s')) :
    ∃ g : Int, g ≤ asI64 limit ∧ (used : Int) = limit - max 0 g := by
  unfold invokeWithArgs at h
  simp only [] at h
  obtain ⟨⟨r, h1⟩, h2⟩ := extRun_spec p host ((asI64 limit).toNat + 1) ((asI64 limit).toNat + 1)
    { vm with pc := pc, gas := asI64 limit } s (by simp) (by simp)
  rcases he : extRun p host ((asI64 limit).toNat + 1) ((asI64 limit).toNat + 1)
    { vm with pc := pc, gas := asI64 limit } s with ⟨o, vm', s2⟩
  rw [he] at h h1 h2
  simp only [] at h h1 h2
  subst h1
  have hle : asI64 limit ≤ limit := by unfold asI64; split <;> omega
  have hu : ((limit + 2 ^ 64 - (max 0 vm'.gas).toNat) % 2 ^ 64 : Nat) = ((limit : Int) - max 0 vm'.gas) := by
    omega
  cases r with
  | error e => cases h
  | ok exit =>
    simp only [] at h
    refine ⟨vm'.gas, h2, ?_⟩
    rw [← hu]
    repeat' split at h
    all_goals first
      | (cases h; done)
      | (cases h; rfl)

/-- **Gas used never exceeds the limit**, and the subtraction that computes it never underflows, for
every 64-bit limit, every program, argument state, entry point and host table. -/
theorem C12_gas_used {σ : Type} (p : Prog) (host : Host σ) (init : Option VM) (pc limit : Nat) (s s' : σ)
    (out : Output) (used : Nat) (hl : limit < 2 ^ 64)
    (h : invokeWithArgs p host init pc limit s = (.ok (out, used), s')) : used ≤ limit := by
  cases init with
  | none => cases h; exact Nat.zero_le _
  | some vm =>
    obtain ⟨g, h1, h2⟩ := extRun_gas_used p host vm limit pc s s' out used hl h
    omega

example : invokeWithArgs countProg countingHost (some (countVM 0)) 0 10 0 = (.ok (.bytes [], 9), 0) := by decide

/-- **A limit of `2^63` or more is spent at once**: the counter is a signed 64-bit integer and starts
negative, so the whole limit is reported used whatever the program does. -/
theorem C12_huge_limit {σ : Type} (p : Prog) (host : Host σ) (vm : VM) (pc limit : Nat) (s s' : σ) (out : Output)
    (used : Nat) (h1 : 2 ^ 63 ≤ limit) (h2 : limit < 2 ^ 64)
    (h : invokeWithArgs p host (some vm) pc limit s = (.ok (out, used), s')) : used = limit := by
  obtain ⟨g, k1, k2⟩ := extRun_gas_used p host vm limit pc s s' out used h2 h
  unfold asI64 at k1
  rw [if_neg (by omega)] at k1
  omega

example : invokeWithArgs countProg countingHost (some (countVM 0)) 0 (2 ^ 63 + 5) 0 = (.ok (.outOfGas, 2 ^ 63 + 5), 0) := by
  decide

/-- A program whose only instruction asks for one byte of heap. -/
def sbrkProg : Prog :=
  match loadParts [101, 0x10] [true, false] [] with
  | .ok p => p
  | .error _ => countProg

/-- **`sbrk` acts before it is paid for.** With no gas the instruction reports `OutOfGas` but the
heap has grown: the next page has become writable. -/
theorem C12_sbrk_unpaid :
    let vm := { countVM 0 with regs := [0, 1] ++ List.replicate 11 0 }
    (runFuel sbrkProg 1 vm).1 = some (.ok .outOfGas) ∧ (runFuel sbrkProg 1 vm).2.mem ≠ vm.mem ∧
      vm.mem.pageWritable 3 = false ∧ (runFuel sbrkProg 1 vm).2.mem.pageWritable 3 = true := by
  decide

/-! ## C13 -/

/-- **Skips and block starts.** For every blob that loads: the skip distances are the distances to the
next instruction (at most 24), and the positions accepted as jump targets are exactly 0 and the
positions following a block-ending instruction other than the very first one. -/
theorem C13_block_starts_partial (blob : List UInt8) (p : Prog) (h : loadProgram blob = .ok p) :
    (∀ i d : Nat, p.skips[i]? = some d → IsSkip p.mask p.code.length i d) ∧
    (∀ t, bitAt p.blocks t = true ↔ t ≤ p.code.length ∧ (t = 0 ∨ ∃ m d, 1 ≤ m ∧ StartsAt p.mask m ∧
      EndsBlock p.code m ∧ IsSkip p.mask p.code.length m d ∧ t = m + 1 + d)) :=
  ⟨(loadProgram_loaded h).skip, (loadProgram_loaded h).blocks⟩

/-- Every accepted jump target is a basic-block start of the program. -/
theorem C13_targets_sound (blob : List UInt8) (p : Prog) (h : loadProgram blob = .ok p) (t : Nat)
    (ht : bitAt p.blocks t = true) : IsBlockStart p.code p.mask t := by
  rcases (((loadProgram_loaded h).blocks t).1 ht).2 with h0 | ⟨m, d, _, h1⟩
  · exact .inl h0
  · exact .inr ⟨m, d, h1⟩

example : bitAt countProg.blocks 4 = true ∧ bitAt countProg.blocks 11 = true := by decide

/-- The loader overlooks a terminator at position 0: with a `fallthrough` there, position 1 starts a
basic block but is not accepted as a jump target, and a jump to it panics. -/
theorem C13_first_terminator_ignored :
    ∃ p, loadProgram [0, 1, 3, 1, 40, 0, 3] = .ok p ∧ IsBlockStart p.code p.mask 1 ∧ bitAt p.blocks 1 = false ∧
      (runFuel p 9 (countVM 8)).1 = some (.ok .panic) := by
  refine ⟨_, rfl, .inr ⟨0, 0, rfl, ⟨1, rfl, .inl (by decide)⟩, ?_, rfl⟩, by decide, by decide⟩
  exact ⟨by decide, by decide, fun j h => by omega, .inr (.inr rfl)⟩

/-- **Every step goes to the next instruction or to a block start.** A step that lets the program
continue was executed at an instruction start, and either moves to the position just after the
instruction's own bytes or, if the instruction is a block terminator, to a basic-block start. -/
theorem C13_step (blob : List UInt8) (p : Prog) (h : loadProgram blob = .ok p) (vm vm' : VM)
    (hs : iter p vm = (none, vm')) :
    StartsAt p.mask vm.pc ∧ ∃ d, IsSkip p.mask p.code.length vm.pc d ∧
      (vm'.pc = vm.pc + 1 + d ∨ (EndsBlock p.code vm.pc ∧ IsBlockStart p.code p.mask vm'.pc)) := by
  have hl := loadProgram_loaded h
  obtain ⟨_, _, ins, hi, hpc⟩ := (iter_spec p vm).1 vm' hs
  obtain ⟨hst, b, hb, hop⟩ := hl.inst _ _ hi
  obtain ⟨d, hd, hskip⟩ := hl.skipAt hst
  refine ⟨hst, d, hskip, ?_⟩
  rcases hpc with hpc | ⟨ht, hblk⟩
  · left
    rw [hpc, Prog.nextPc, hd]
    rfl
  · right
    rw [hop] at ht
    exact ⟨⟨b, hb, (terminates_iff b.toNat b.toNat_lt).1 ht⟩, C13_targets_sound blob p h _ hblk⟩

example : ∃ vm', runFuel countProg 3 (countVM 10) = (none, vm') ∧ vm'.pc = 7 ∧
    (∃ vm'', iter countProg vm' = (none, vm'') ∧ vm''.pc = 4) := ⟨_, rfl, by decide, _, rfl, by decide⟩

/-- **No overlapping decodings.** Two different positions at which the interpreter will execute an
instruction never share a byte, so no program can run the operand of one instruction as another. -/
theorem C13_no_overlap (blob : List UInt8) (p : Prog) (h : loadProgram blob = .ok p) (i j x : Nat) (a b : Instr)
    (hi : p.instructionAt i = some a) (hj : p.instructionAt j = some b) (hne : i ≠ j)
    (hxi : Occupies p.mask p.code.length i x) : ¬ Occupies p.mask p.code.length j x := by
  have hl := loadProgram_loaded h
  have key : ∀ i j d, i < j → StartsAt p.mask j → IsSkip p.mask p.code.length i d → i + 1 + d ≤ j := by
    intro i j d hij hj hd
    rcases Nat.lt_or_ge j (i + 1 + d) with hlt | hge
    · exfalso
      have := hd.operand (j - (i + 1)) (by omega)
      rw [show i + 1 + (j - (i + 1)) = j by omega] at this
      exact this hj
    · exact hge
  rintro ⟨e, he, h3, h4⟩
  obtain ⟨d, hd, h1, h2⟩ := hxi
  rcases Nat.lt_or_gt_of_ne hne with hlt | hgt
  · have := key i j d hlt (hl.inst _ _ hj).1 hd
    omega
  · have := key j i e hgt (hl.inst _ _ hi).1 he
    omega

example : Occupies countProg.mask countProg.code.length 4 6 ∧ (countProg.instructionAt 4).isSome ∧
    (countProg.instructionAt 7).isSome :=
  ⟨⟨2, ⟨by decide, by decide, fun j h => by
    rcases j with _ | _ | j
    · decide
    · decide
    · omega, .inr (.inr (by decide))⟩, by decide, by decide⟩, by decide, by decide⟩

/-- Where a non-instruction position is reached, nothing is executed: the run ends in a panic with the
state, gas included, untouched. -/
theorem C13_no_instruction (blob : List UInt8) (p : Prog) (h : loadProgram blob = .ok p) (vm : VM)
    (hs : ¬ StartsAt p.mask vm.pc) : iter p vm = (some (.ok .panic), vm) := by
  unfold iter
  cases hi : p.instructionAt vm.pc with
  | none => rfl
  | some ins => exact absurd ((loadProgram_loaded h).inst _ _ hi).1 hs

example : ¬ StartsAt countProg.mask 5 := by decide

/-- **Unconditional jump.** The target is the instruction's position plus the signed offset in the
(at most four) bytes that follow. If it is an accepted block start, control is there; otherwise the
program panics where it is. Nothing but the gas counter and the program counter changes. -/
theorem C13_jump (blob : List UInt8) (p : Prog) (h : loadProgram blob = .ok p) (vm : VM) (d : Nat)
    (hg : 1 ≤ vm.gas) (hs : StartsAt p.mask vm.pc) (hb : p.code[vm.pc]? = some 40)
    (hd : IsSkip p.mask p.code.length vm.pc d) :
    ∃ t : Nat, (t : Int) = (vm.pc + leSigned ((p.code.drop (vm.pc + 1)).take (min 4 d))) % 2 ^ 32 ∧
      iter p vm = if bitAt p.blocks t then (none, { vm with gas := vm.gas - 1, pc := t })
        else (some (.ok .panic), { vm with gas := vm.gas - 1 }) := by
  have hl := loadProgram_loaded h
  obtain ⟨ins, hi⟩ := hl.start _ hs
  obtain ⟨_, b, hb', hop⟩ := hl.inst _ _ hi
  rw [hb] at hb'; cases hb'
  have hop' : ins.op = .jump := hop
  have hdec := hl.decode _ _ _ hi hd
  have himm : immTarget vm.pc ((p.code.drop vm.pc).take (d + 1)) (min 4 d) 1 = .ok ins.imm1 := by
    unfold fromBlob byteAt at hdec
    have h0 : ((p.code.drop vm.pc).take (d + 1))[0]? = some 40 := by
      rw [List.getElem?_take, if_pos (by omega), List.getElem?_drop]
      simpa using hb
    rw [h0] at hdec
    simp only [bind, Except.bind] at hdec
    split at hdec
    · cases hdec
    · have hlay : (Op.ofByte (40 : UInt8).toNat).layout = .offset := by decide
      rw [hlay] at hdec
      simp only [] at hdec
      cases hr : immTarget vm.pc ((p.code.drop vm.pc).take (d + 1)) (min 4 d) 1 with
      | error e => rw [hr] at hdec; cases hdec
      | ok r => rw [hr] at hdec; cases hdec; rfl
  obtain ⟨_, htgt⟩ := immTarget_spec himm
  refine ⟨addr32 ins.imm1, ?_, ?_⟩
  · rw [htgt, List.drop_take, List.drop_drop, List.take_take]
    rw [show min (min 4 d) (d + 1 - 1) = min 4 d by omega]
    generalize leSigned _ = o
    unfold addr32
    rw [BitVec.toNat_ofInt]
    omega
  · rcases hbr : branchTo p vm.pc (addr32 ins.imm1) true with ⟨e, t⟩
    have hstep : singleStep vm p ins = (.ok (e, { newPc := t }), vm.mem) := by
      unfold singleStep
      rw [hop']
      simp only [hbr]
    unfold branchTo at hbr
    simp only [if_true] at hbr
    split at hbr
    · rename_i hblk
      cases hbr
      rw [iter_plain hg hi hstep rfl rfl]
      simp [hblk]
    · rename_i hblk
      cases hbr
      rw [iter_plain hg hi hstep rfl rfl]
      simp [hblk]

/-- A program that jumps forward over two traps. -/
def jumpProg : Prog :=
  match loadProgram [0, 1, 7, 1, 40, 4, 0, 0, 1, 40, 0x7B] with
  | .ok p => p
  | .error _ => countProg

example : jumpProg.code[1]? = some 40 ∧ IsSkip jumpProg.mask jumpProg.code.length 1 1 ∧
    bitAt jumpProg.blocks 5 = true :=
  ⟨by decide, ⟨by decide, by decide, fun j h => by
    rcases j with _ | j
    · decide
    · omega, .inr (.inr (by decide))⟩, by decide⟩

/-- **Conditional branches** between two registers: if the comparison holds, the target must be an
accepted block start and control goes there, or the program panics; otherwise control goes to the
next instruction. -/
theorem C13_branch (p : Prog) (vm : VM) (ins : Instr) (c : Cond) (hg : 1 ≤ vm.gas)
    (hi : p.instructionAt vm.pc = some ins) (hop : ins.op = .branch c) :
    (¬ c.Holds (vm.r ins.rs1) (vm.r ins.rs2) →
      iter p vm = (none, { vm with gas := vm.gas - 1, pc := p.nextPc vm.pc })) ∧
    (c.Holds (vm.r ins.rs1) (vm.r ins.rs2) →
      iter p vm = if bitAt p.blocks (addr32 ins.imm1) then (none, { vm with gas := vm.gas - 1, pc := addr32 ins.imm1 })
        else (some (.ok .panic), { vm with gas := vm.gas - 1 })) := by
  have hev := Cond.eval_iff c (vm.r ins.rs1) (vm.r ins.rs2)
  rcases hbr : branchTo p vm.pc (addr32 ins.imm1) (c.eval (vm.r ins.rs1) (vm.r ins.rs2)) with ⟨e, t⟩
  have hstep : singleStep vm p ins = (.ok (e, { newPc := t }), vm.mem) := by
    unfold singleStep
    rw [hop]
    simp only [hbr]
  constructor
  · intro hn
    have : c.eval (vm.r ins.rs1) (vm.r ins.rs2) = false := by
      cases he : c.eval (vm.r ins.rs1) (vm.r ins.rs2) with
      | false => rfl
      | true => exact absurd (hev.1 he) hn
    rw [this] at hbr
    cases hbr
    rw [iter_plain hg hi hstep rfl rfl]
    simp
  · intro hc
    rw [hev.2 hc] at hbr
    unfold branchTo at hbr
    simp only [if_true] at hbr
    split at hbr
    · rename_i hblk
      cases hbr
      rw [iter_plain hg hi hstep rfl rfl]
      simp [hblk]
    · rename_i hblk
      cases hbr
      rw [iter_plain hg hi hstep rfl rfl]
      simp [hblk]

/-- **Branches against an immediate.** As above; the immediate is the instruction's first, the target
its second. -/
theorem C13_branch_imm (p : Prog) (vm : VM) (ins : Instr) (c : Cond) (hg : 1 ≤ vm.gas)
    (hi : p.instructionAt vm.pc = some ins) (hop : ins.op = .branchImm c) :
    (¬ c.Holds (vm.r ins.rs1) ins.imm1 →
      iter p vm = (none, { vm with gas := vm.gas - 1, pc := p.nextPc vm.pc })) ∧
    (c.Holds (vm.r ins.rs1) ins.imm1 →
      iter p vm = if bitAt p.blocks (addr32 ins.imm2) then (none, { vm with gas := vm.gas - 1, pc := addr32 ins.imm2 })
        else (some (.ok .panic), { vm with gas := vm.gas - 1 })) := by
  have hev := Cond.eval_iff c (vm.r ins.rs1) ins.imm1
  rcases hbr : branchTo p vm.pc (addr32 ins.imm2) (c.eval (vm.r ins.rs1) ins.imm1) with ⟨e, t⟩
  have hstep : singleStep vm p ins = (.ok (e, { newPc := t }), vm.mem) := by
    unfold singleStep
    rw [hop]
    simp only [hbr]
  constructor
  · intro hn
    have : c.eval (vm.r ins.rs1) ins.imm1 = false := by
      cases he : c.eval (vm.r ins.rs1) ins.imm1 with
      | false => rfl
      | true => exact absurd (hev.1 he) hn
    rw [this] at hbr
    cases hbr
    rw [iter_plain hg hi hstep rfl rfl]
    simp
  · intro hc
    rw [hev.2 hc] at hbr
    unfold branchTo at hbr
    simp only [if_true] at hbr
    split at hbr
    · rename_i hblk
      cases hbr
      rw [iter_plain hg hi hstep rfl rfl]
      simp [hblk]
    · rename_i hblk
      cases hbr
      rw [iter_plain hg hi hstep rfl rfl]
      simp [hblk]

example : ∃ ins, countProg.instructionAt 7 = some ins ∧ ins.op = .branchImm .ne ∧ addr32 ins.imm2 = 4 := ⟨_, rfl, by decide⟩

/-- **Dynamic jump.** With `a` the low 32 bits of register plus immediate: `a = 2^32 - 2^16` halts;
otherwise control goes to entry `a/2 - 1` of the jump table if `a` is even, non-zero, within the
table, and the entry is an accepted block start; in every other case the program panics in place. -/
theorem C13_dynamic_jump (p : Prog) (vm : VM) (ins : Instr) (hg : 1 ≤ vm.gas)
    (hi : p.instructionAt vm.pc = some ins) (hop : ins.op = .jumpInd) :
    let a := ((vm.r ins.rs1).toNat + ins.imm1.toNat) % 2 ^ 32
    (a = 2 ^ 32 - 2 ^ 16 → iter p vm = (some (.ok .halt), { vm with gas := vm.gas - 1 })) ∧
    (a ≠ 2 ^ 32 - 2 ^ 16 →
      (∀ k t, a = 2 * (k + 1) → p.table[k]? = some t → bitAt p.blocks t = true →
        iter p vm = (none, { vm with gas := vm.gas - 1, pc := t })) ∧
      ((¬ ∃ k t, a = 2 * (k + 1) ∧ p.table[k]? = some t ∧ bitAt p.blocks t = true) →
        iter p vm = (some (.ok .panic), { vm with gas := vm.gas - 1 }))) := by
  intro a
  have ha : addr32 (vm.r ins.rs1 + ins.imm1) = a := by
    unfold addr32
    rw [BitVec.toNat_add]
    show _ = ((vm.r ins.rs1).toNat + ins.imm1.toNat) % 2 ^ 32
    omega
  have hstep : ∀ e t, djump p vm.pc a = .ok (e, t) → singleStep vm p ins = (.ok (e, { newPc := t }), vm.mem) := by
    intro e t hd
    unfold singleStep
    rw [hop]
    simp only [ha, hd]
  refine ⟨fun hh => ?_, fun hh => ⟨fun k t h1 h2 h3 => ?_, fun hno => ?_⟩⟩
  · have hd : djump p vm.pc a = .ok (.halt, vm.pc) := by unfold djump; rw [if_pos hh]
    rw [iter_plain hg hi (hstep _ _ hd) rfl rfl]
    simp
  · have hk := (List.getElem?_eq_some_iff.1 h2).1
    have hd : djump p vm.pc a = .ok (.cont, t) := by
      unfold djump
      rw [if_neg hh, if_neg (by omega), show a / 2 - 1 = k by omega, h2]
      simp [h3]
    rw [iter_plain hg hi (hstep _ _ hd) rfl rfl]
    simp
  · have hd : djump p vm.pc a = .ok (.panic, vm.pc) := by
      unfold djump
      rw [if_neg hh]
      split
      · rfl
      · rename_i hc
        have hlt : a / 2 - 1 < p.table.length := by omega
        rw [List.getElem?_eq_getElem hlt]
        simp only []
        split
        · rename_i hb
          exact absurd ⟨a / 2 - 1, _, by omega, List.getElem?_eq_getElem hlt, hb⟩ hno
        · rfl
    rw [iter_plain hg hi (hstep _ _ hd) rfl rfl]
    simp

/-- A program with one jump-table entry and a dynamic jump through it. -/
def tableProg : Prog :=
  match loadProgram [1, 1, 5, 4, 1, 50, 0, 1, 1, 0x1B] with
  | .ok p => p
  | .error _ => countProg

example : (tableProg.instructionAt 1).isSome ∧ tableProg.table = [4] ∧ bitAt tableProg.blocks 4 = true ∧
    (iter tableProg { countVM 5 with pc := 1, regs := 2 :: List.replicate 12 0 }).2.pc = 4 := by decide

end Fastroll.Pvm
