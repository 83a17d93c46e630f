import Verif.Codec.Model
import Verif.Pvm.AluModel
import Verif.Pvm.LayoutModel
/-!
# Model of the PVM's program loader and interpreter

Transcribes, in `/repo/pvm/pvm-core/src`: `program/loader.rs`, `program/instruction/mod.rs` lines
109-380, `program/instruction/opcode.rs`, the control-flow, load and store instructions of
`program/instruction/set.rs`, `state/state_change.rs` lines 117-195, `gas/mod.rs`,
`interpreter/mod.rs`; and in `/repo/pvm/pvm-interface/src`: `invoke.rs` lines 181-324.

Simplifications. The `Option` operands of `Instruction` are plain fields: `from_inst_blob` sets
every operand the instruction's executor reads. A register index above 12 cannot occur
(`regIdx`), so `InvalidRegIndex` is not modelled. Host functions are a parameter. A Rust panic
is the value `LoadErr.panic`.
-/
namespace Fastroll.Pvm

/-- Comparison of a branch, set.rs lines 613-772 and 1600-1705. -/
inductive Cond where
  | eq | ne | ltU | leU | geU | gtU | ltS | leS | geS | gtS
deriving DecidableEq, Repr

/-- The value classes of the load instructions. -/
inductive LoadK where
  | u8 | i8 | u16 | i16 | u32 | i32 | u64
deriving DecidableEq, Repr

/-- `Opcode`, opcode.rs lines 1-143, grouped by behaviour. Stores carry their width in bytes. -/
inductive Op where
  | trap | fallthrough | ecalli | loadImm64 | storeImm (w : Nat) | jump | jumpInd | loadImm
  | load (k : LoadK) | store (w : Nat) | storeImmInd (w : Nat) | loadImmJump | branchImm (c : Cond)
  | sbrk | op2 (o : Op2) | storeInd (w : Nat) | loadInd (k : LoadK) | opImm (o : OpImm)
  | branch (c : Cond) | loadImmJumpInd | op3 (o : Op3)
deriving DecidableEq, Repr

def loadKinds : List LoadK := [.u8, .i8, .u16, .i16, .u32, .i32, .u64]
def condsImm : List Cond := [.eq, .ne, .ltU, .leU, .geU, .gtU, .ltS, .leS, .geS, .gtS]
def condsReg : List Cond := [.eq, .ne, .ltU, .ltS, .geU, .geS]
def op2s : List Op2 :=
  [.countSetBits64, .countSetBits32, .leadingZeroBits64, .leadingZeroBits32, .trailingZeroBits64,
   .trailingZeroBits32, .signExtend8, .signExtend16, .zeroExtend16, .reverseBytes]
def opImms : List OpImm :=
  [.addImm32, .andImm, .xorImm, .orImm, .mulImm32, .setLtUImm, .setLtSImm, .shloLImm32, .shloRImm32,
   .sharRImm32, .negAddImm32, .setGtUImm, .setGtSImm, .shloLImmAlt32, .shloRImmAlt32, .sharRImmAlt32,
   .cmovIzImm, .cmovNzImm, .addImm64, .mulImm64, .shloLImm64, .shloRImm64, .sharRImm64, .negAddImm64,
   .shloLImmAlt64, .shloRImmAlt64, .sharRImmAlt64, .rotR64Imm, .rotR64ImmAlt, .rotR32Imm, .rotR32ImmAlt]
def op3s : List Op3 :=
  [.add32, .sub32, .mul32, .divU32, .divS32, .remU32, .remS32, .shloL32, .shloR32, .sharR32,
   .add64, .sub64, .mul64, .divU64, .divS64, .remU64, .remS64, .shloL64, .shloR64, .sharR64,
   .and, .xor, .or, .mulUpperSS, .mulUpperUU, .mulUpperSU, .setLtU, .setLtS, .cmovIz, .cmovNz,
   .rotL64, .rotL32, .rotR64, .rotR32, .andInv, .orInv, .xnor, .max, .maxU, .min, .minU]

/-- `Opcode::from_u8`, opcode.rs lines 145-291. Unknown bytes are `TRAP`. -/
def Op.ofByte (b : Nat) : Op :=
  if b = 1 then .fallthrough
  else if b = 10 then .ecalli
  else if b = 20 then .loadImm64
  else if 30 ≤ b ∧ b ≤ 33 then .storeImm (2 ^ (b - 30))
  else if b = 40 then .jump
  else if b = 50 then .jumpInd
  else if b = 51 then .loadImm
  else if 52 ≤ b ∧ b ≤ 58 then .load (loadKinds.getD (b - 52) .u8)
  else if 59 ≤ b ∧ b ≤ 62 then .store (2 ^ (b - 59))
  else if 70 ≤ b ∧ b ≤ 73 then .storeImmInd (2 ^ (b - 70))
  else if b = 80 then .loadImmJump
  else if 81 ≤ b ∧ b ≤ 90 then .branchImm (condsImm.getD (b - 81) .eq)
  else if b = 100 then .op2 .moveReg
  else if b = 101 then .sbrk
  else if 102 ≤ b ∧ b ≤ 111 then .op2 (op2s.getD (b - 102) .moveReg)
  else if 120 ≤ b ∧ b ≤ 123 then .storeInd (2 ^ (b - 120))
  else if 124 ≤ b ∧ b ≤ 130 then .loadInd (loadKinds.getD (b - 124) .u8)
  else if 131 ≤ b ∧ b ≤ 161 then .opImm (opImms.getD (b - 131) .addImm32)
  else if 170 ≤ b ∧ b ≤ 175 then .branch (condsReg.getD (b - 170) .eq)
  else if b = 180 then .loadImmJumpInd
  else if 190 ≤ b ∧ b ≤ 230 then .op3 (op3s.getD (b - 190) .add32)
  else .trap

/-- `is_termination_opcode`, opcode.rs lines 295-328. -/
def Op.terminates : Op → Bool
  | .trap | .fallthrough | .jump | .jumpInd | .loadImmJump | .loadImmJumpInd
  | .branchImm _ | .branch _ => true
  | _ => false

/-- `Instruction`, instruction/mod.rs lines 60-75. -/
structure Instr where
  op : Op
  rs1 : Nat := 0
  rs2 : Nat := 0
  rd : Nat := 0
  imm1 : Reg := 0
  imm2 : Reg := 0
deriving DecidableEq, Repr

/-- Why loading a program did not return `Ok`. -/
inductive LoadErr where
  | codec | invalidProgram | invalidFormat
  /-- The Rust code indexes out of bounds (or asks for an impossible allocation): the thread panics. -/
  | panic
deriving DecidableEq, Repr

/-- `MAX_SKIP_DISTANCE`, `MAX_INST_BLOB_LENGTH`: pvm-types/src/constants.rs. -/
def MAX_SKIP : Nat := 24
def MAX_INST : Nat := 16

/-- `blob[i]`. -/
def byteAt (blob : List UInt8) (i : Nat) : Except LoadErr Nat :=
  match blob[i]? with
  | some b => .ok b.toNat
  | none => .error .panic

/-- `&blob[start..start + n]` decoded as a little-endian integer. -/
def sliceLE (blob : List UInt8) (start n : Nat) : Except LoadErr Nat :=
  if start + n > blob.length then .error .panic
  else .ok (((blob.drop start).take n).foldr (fun b acc => b.toNat + 256 * acc) 0)

/-- `extract_imm_value`, instruction/mod.rs lines 338-357. -/
def immValue (blob : List UInt8) (n start : Nat) : Except LoadErr Reg :=
  if n > 0 then (sliceLE blob start n).map (sext n) else .ok 0

/-- `unsigned_to_signed`, utils.rs lines 82-94, for `1 ≤ n ≤ 8` octets. -/
def unsignedToSigned (a n : Nat) : Int :=
  if a < 1 <<< (8 * n - 1) then a else (a : Int) - (1 <<< (8 * n) : Nat)

/-- `extract_imm_target_address`, instruction/mod.rs lines 360-382. -/
def immTarget (pc : Nat) (blob : List UInt8) (n start : Nat) : Except LoadErr Reg :=
  if n > 0 then (sliceLE blob start n).map fun v => BitVec.ofInt 64 (pc + unsignedToSigned v n)
  else .ok (BitVec.ofNat 64 pc)

/-- `12.min(x) as RegIndex`. -/
def regIdx (x : Nat) : Nat := min 12 x

/-- The operand layouts of `from_inst_blob`. -/
inductive Layout where
  | none | imm | regImm64 | imm2 | offset | regImm | regImm2 | regImmOffset | reg2 | reg2Imm
  | reg2Offset | reg2Imm2 | reg3
deriving DecidableEq, Repr

/-- The match arms of `from_inst_blob`, instruction/mod.rs lines 124-308. -/
def Op.layout : Op → Layout
  | .trap | .fallthrough => .none
  | .ecalli => .imm
  | .loadImm64 => .regImm64
  | .storeImm _ => .imm2
  | .jump => .offset
  | .jumpInd | .loadImm | .load _ | .store _ => .regImm
  | .storeImmInd _ => .regImm2
  | .loadImmJump | .branchImm _ => .regImmOffset
  | .sbrk | .op2 _ => .reg2
  | .storeInd _ | .loadInd _ | .opImm _ => .reg2Imm
  | .branch _ => .reg2Offset
  | .loadImmJumpInd => .reg2Imm2
  | .op3 _ => .reg3

/-- `from_inst_blob`, instruction/mod.rs lines 109-311. -/
def fromBlob (blob : List UInt8) (pc skip : Nat) : Except LoadErr Instr := do
  let op := Op.ofByte (← byteAt blob 0)
  if blob.length > MAX_INST then .error .invalidFormat
  else
    match op.layout with
    | .none => .ok { op }
    | .imm => .ok { op, imm1 := ← immValue blob (min 4 skip) 1 }
    | .regImm64 =>
      let b1 ← byteAt blob 1
      .ok { op, rs1 := regIdx (b1 % 16), imm1 := BitVec.ofNat 64 (← sliceLE blob 2 8) }
    | .imm2 =>
      let lx := min 4 ((← byteAt blob 1) % 8)
      let ly := min 4 (skip - (lx + 1))
      .ok { op, imm1 := ← immValue blob lx 2, imm2 := ← immValue blob ly (2 + lx) }
    | .offset => .ok { op, imm1 := ← immTarget pc blob (min 4 skip) 1 }
    | .regImm =>
      let b1 ← byteAt blob 1
      .ok { op, rs1 := regIdx (b1 % 16), imm1 := ← immValue blob (min 4 (skip - 1)) 2 }
    | .regImm2 =>
      let b1 ← byteAt blob 1
      let lx := min 4 (b1 / 16 % 8)
      let ly := min 4 (skip - (lx + 1))
      .ok { op, rs1 := regIdx (b1 % 16), imm1 := ← immValue blob lx 2, imm2 := ← immValue blob ly (2 + lx) }
    | .regImmOffset =>
      let b1 ← byteAt blob 1
      let lx := min 4 (b1 / 16 % 8)
      let ly := min 4 (skip - (lx + 1))
      .ok { op, rs1 := regIdx (b1 % 16), imm1 := ← immValue blob lx 2, imm2 := ← immTarget pc blob ly (2 + lx) }
    | .reg2 =>
      let b1 ← byteAt blob 1
      .ok { op, rs1 := regIdx (b1 / 16), rd := regIdx (b1 % 16) }
    | .reg2Imm =>
      let b1 ← byteAt blob 1
      .ok { op, rs1 := regIdx (b1 % 16), rs2 := regIdx (b1 / 16), imm1 := ← immValue blob (min 4 (skip - 1)) 2 }
    | .reg2Offset =>
      let b1 ← byteAt blob 1
      .ok { op, rs1 := regIdx (b1 % 16), rs2 := regIdx (b1 / 16), imm1 := ← immTarget pc blob (min 4 (skip - 1)) 2 }
    | .reg2Imm2 =>
      let b1 ← byteAt blob 1
      let lx := min 4 ((← byteAt blob 2) % 8)
      let ly := min 4 (skip - (lx + 2))
      .ok { op, rs1 := regIdx (b1 % 16), rs2 := regIdx (b1 / 16), imm1 := ← immValue blob lx 3,
                imm2 := ← immValue blob ly (3 + lx) }
    | .reg3 =>
      let b1 ← byteAt blob 1
      .ok { op, rs1 := regIdx (b1 % 16), rs2 := regIdx (b1 / 16), rd := regIdx (← byteAt blob 2) }

/-- `ProgramState`, program_state.rs lines 12-33. `NOT_INSTRUCTION_INDEX` is `none`. -/
structure Prog where
  code : List UInt8
  mask : List Bool
  table : List Nat
  skips : List Nat
  decoded : List Instr
  lookup : List (Option Nat)
  blocks : List Bool
deriving DecidableEq, Repr

/-- `bitmask.get(i).map(|b| *b).unwrap_or(false)`. -/
def bitAt (bs : List Bool) (i : Nat) : Bool := (bs[i]?).getD false

/-- `compute_skip_distances`, loader.rs lines 121-137: the reverse loop, building the vector
from its end. `idx` counts down; `next` is `next_inst_idx`. -/
def skipLoop (mask : List Bool) (len : Nat) : Nat → Option Nat → List Nat → List Nat
  | 0, _, acc => acc
  | idx + 1, next, acc =>
    let distance := match next with
      | some n => n - (idx + 1)
      | none => len - (idx + 1)
    skipLoop mask len idx (if bitAt mask idx then some idx else next) (min distance MAX_SKIP :: acc)

def skipDistances (mask : List Bool) (len : Nat) : List Nat := skipLoop mask len len none []

/-- `decode_instructions`, loader.rs lines 140-168: the loop over the opcode bitmask. -/
def decodeLoop (code : List UInt8) (skips : List Nat) :
    List Bool → (idx : Nat) → List Instr → List (Option Nat) →
      Except LoadErr (List Instr × List (Option Nat))
  | [], _, dec, look => .ok (dec, look)
  | b :: bs, idx, dec, look =>
    if !b then decodeLoop code skips bs (idx + 1) dec look
    else
      let skip := (skips[idx]?).getD MAX_SKIP
      let next := idx + 1 + skip
      let inst := if next > code.length then .ok { op := .trap }
        else fromBlob ((code.drop idx).take (next - idx)) idx skip
      match inst with
      | .error e => .error e
      | .ok i => decodeLoop code skips bs (idx + 1) (dec ++ [i]) (look.set idx (some dec.length))

/-- `instruction_at`, program_state.rs lines 52-58. -/
def Prog.instructionAt (p : Prog) (pc : Nat) : Option Instr :=
  match p.lookup[pc]? with
  | some (some i) => p.decoded[i]?
  | _ => none

/-- `set_basic_block_start_indices`, loader.rs lines 92-114: `cnt` iterations from `n`. -/
def blocksLoop (p : Prog) : (cnt n : Nat) → List Bool → List Bool
  | 0, _, bl => bl
  | cnt + 1, n, bl =>
    let bl' :=
      if bitAt p.mask n then
        match p.instructionAt n with
        | some i =>
          if i.op.terminates then
            let next := n + 1 + (p.skips[n]?).getD MAX_SKIP
            if next < bl.length then bl.set next true else bl
          else bl
        | none => bl
      else bl
    blocksLoop p cnt (n + 1) bl'

/-- `load_program`, loader.rs lines 24-46, after `deblob_program_code`. -/
def loadParts (code : List UInt8) (mask : List Bool) (table : List Nat) : Except LoadErr Prog :=
  let skips := skipDistances mask code.length
  match decodeLoop code skips mask 0 [] (List.replicate code.length none) with
  | .error e => .error e
  | .ok (decoded, lookup) =>
    let p : Prog := { code, mask, table, skips, decoded, lookup, blocks := List.replicate (code.length + 1) false }
    .ok { p with blocks := blocksLoop p (code.length - 1) 1 (p.blocks.set 0 true) }

open Codec in
/-- `deblob_program_code`, loader.rs lines 56-88. `Vec::with_capacity(n)` for 4-byte entries panics
when `4 n` exceeds `isize::MAX`; an allocation the machine cannot serve is not modelled. -/
def deblob (blob : List UInt8) : Except LoadErr (List UInt8 × List Bool × List Nat) :=
  match intDecode 64 blob with
  | .error _ => .error .codec
  | .ok (tableLen, r) =>
  match readByte r with
  | .error _ => .error .codec
  | .ok (z, r) =>
  match intDecode 64 r with
  | .error _ => .error .codec
  | .ok (codeLen, r) =>
  if 4 * tableLen > 2 ^ 63 - 1 then .error .panic
  else
  match seqDec (fixedDecode 32 z.toNat) tableLen r with
  | .error _ => .error .codec
  | .ok (table, r) =>
  if codeLen > 2 ^ 63 - 1 then .error .panic
  else if codeLen > r.length then .error .codec
  else
  match bitsDecFixed codeLen (r.drop codeLen) with
  | .error _ => .error .codec
  | .ok (mask, rest) => if rest ≠ [] then .error .invalidProgram else .ok (r.take codeLen, mask, table)

/-- `load_program`, loader.rs lines 19-51. -/
def loadProgram (blob : List UInt8) : Except LoadErr Prog :=
  match deblob blob with
  | .error e => .error e
  | .ok (code, mask, table) => loadParts code mask table

/-- `ExitReason`, pvm-types/src/exit_reason.rs. A host call carries the byte of `ecalli`. -/
inductive Exit where
  | cont | halt | panic | outOfGas | pageFault (addr : Nat) | hostCall (h : Nat)
deriving DecidableEq, Repr

/-- `VMState`, vm_state.rs lines 11-22. -/
structure VM where
  regs : List Reg
  mem : Mem
  pc : Nat
  gas : Int
deriving DecidableEq, Repr

/-- `VMStateChange`, state_change.rs lines 81-101; `gas_charge` is always the default
`INST_BASE_GAS_CHARGE = 1`. -/
structure Change where
  reg : Option (Nat × Reg) := none
  mem : Option (Nat × List UInt8) := none
  newPc : Nat := 0
deriving DecidableEq, Repr

/-- The errors of `VMCoreError` that execution can return. -/
inductive VmErr where
  | mem (e : MemErr) | jumpTable | tooLargeGas | gasOverflow | invalidExit | regVal | load (e : LoadErr) | host
deriving DecidableEq, Repr

def INST_GAS : Int := 1

def VM.r (vm : VM) (i : Nat) : Reg := vm.regs.getD i 0

/-- `next_pc`, interpreter/mod.rs lines 25-37. -/
def Prog.nextPc (p : Prog) (pc : Nat) : Nat := pc + 1 + (p.skips[pc]?).getD MAX_SKIP

/-- `branch`, set.rs lines 60-79. -/
def branchTo (p : Prog) (pc target : Nat) (cond : Bool) : Exit × Nat :=
  if cond then (if bitAt p.blocks target then (.cont, target) else (.panic, pc))
  else (.cont, p.nextPc pc)

/-- `djump`, set.rs lines 87-123. -/
def djump (p : Prog) (pc a : Nat) : Except VmErr (Exit × Nat) :=
  if a = 2 ^ 32 - 2 ^ 16 then .ok (.halt, pc)
  else if a = 0 ∨ a > p.table.length * 2 ∨ a % 2 ≠ 0 then .ok (.panic, pc)
  else
    match p.table[a / 2 - 1]? with
    | none => .error .jumpTable
    | some t => if bitAt p.blocks t then .ok (.cont, t) else .ok (.panic, pc)

/-- The branch conditions, set.rs lines 613-772 and 1600-1705. -/
def Cond.eval : Cond → Reg → Reg → Bool
  | .eq, a, b => a = b
  | .ne, a, b => a ≠ b
  | .ltU, a, b => a.toNat < b.toNat
  | .leU, a, b => a.toNat ≤ b.toNat
  | .geU, a, b => a.toNat ≥ b.toNat
  | .gtU, a, b => a.toNat > b.toNat
  | .ltS, a, b => uToI 64 a.toNat < uToI 64 b.toNat
  | .leS, a, b => uToI 64 a.toNat ≤ uToI 64 b.toNat
  | .geS, a, b => uToI 64 a.toNat ≥ uToI 64 b.toNat
  | .gtS, a, b => uToI 64 a.toNat > uToI 64 b.toNat

/-- Bytes read by a load. -/
def LoadK.size : LoadK → Nat
  | .u8 | .i8 => 1
  | .u16 | .i16 => 2
  | .u32 | .i32 => 4
  | .u64 => 8

/-- The register value of a direct load, set.rs lines 324-470. -/
def LoadK.value (k : LoadK) (v : Nat) : Reg :=
  match k with
  | .i8 | .i16 | .i32 => sext k.size v
  | _ => BitVec.ofNat 64 v

/-- The register value of an indirect load, set.rs lines 1000-1155. -/
def LoadK.valueInd (k : LoadK) (v : Nat) : Reg :=
  match k with
  | .i8 | .i16 | .i32 => i64ToU64 (uToI (8 * k.size) v)
  | _ => BitVec.ofNat 64 v

/-- `from_le_bytes`. -/
def fromLE (bs : List UInt8) : Nat := bs.foldr (fun b acc => b.toNat + 256 * acc) 0

/-- Byte loads use `read_byte`, wider ones `read_bytes_fixed`. -/
def loadRaw (m : Mem) (addr : Nat) (k : LoadK) : Except MemErr Nat :=
  if k.size = 1 then (m.readByte addr).map (·.toNat) else (m.readBytes addr k.size).map fromLE

/-- The result match of every load instruction, e.g. set.rs lines 330-337. -/
def loadStep (vm : VM) (p : Prog) (addr : Nat) (k : LoadK) (rd : Nat) (value : Nat → Reg) :
    Except VmErr (Exit × Change) :=
  match loadRaw vm.mem addr k with
  | .ok v => .ok (.cont, { newPc := p.nextPc vm.pc, reg := some (rd, value v) })
  | .error (.forbidden _) => .ok (.panic, {})
  | .error (.accessViolation a) => .ok (.pageFault a, {})
  | .error e => .error (.mem e)

/-- `x.to_le_bytes()` truncated to `w` bytes. -/
def storeBytes (w : Nat) (x : Reg) : List UInt8 := Codec.leBytes w x.toNat

/-- `reg as MemAddress`. -/
def addr32 (x : Reg) : Nat := x.toNat % 2 ^ 32

/-- `invoke_single_step`, interpreter/mod.rs lines 125-268, with the executors of set.rs. The memory
returned is the one left behind: only `sbrk` changes it. -/
def singleStep (vm : VM) (p : Prog) (ins : Instr) : Except VmErr (Exit × Change) × Mem :=
  let next := p.nextPc vm.pc
  let keep (r : Except VmErr (Exit × Change)) := (r, vm.mem)
  let jump (e : Exit × Nat) (reg : Option (Nat × Reg)) : Except VmErr (Exit × Change) :=
    .ok (e.1, { newPc := e.2, reg })
  let write (r : Nat) (v : Reg) : Except VmErr (Exit × Change) := .ok (.cont, { newPc := next, reg := some (r, v) })
  let store (a w : Nat) (v : Reg) : Except VmErr (Exit × Change) :=
    .ok (.cont, { newPc := next, mem := some (a, storeBytes w v) })
  let dyn (a : Nat) (reg : Option (Nat × Reg)) : Except VmErr (Exit × Change) :=
    match djump p vm.pc a with
    | .error e => .error e
    | .ok e => jump e reg
  match ins.op with
  | .trap => keep (.ok (.panic, { newPc := vm.pc }))
  | .fallthrough => keep (.ok (.cont, { newPc := next }))
  | .ecalli => keep (.ok (.hostCall (ins.imm1.toNat % 256), { newPc := next }))
  | .loadImm64 => keep (write ins.rs1 ins.imm1)
  | .storeImm w => keep (store (addr32 ins.imm1) w ins.imm2)
  | .jump => keep (jump (branchTo p vm.pc (addr32 ins.imm1) true) none)
  | .jumpInd => keep (dyn (addr32 (vm.r ins.rs1 + ins.imm1)) none)
  | .loadImm => keep (write ins.rs1 ins.imm1)
  | .load k => keep (loadStep vm p (addr32 ins.imm1) k ins.rs1 k.value)
  | .store w => keep (store (addr32 ins.imm1) w (vm.r ins.rs1))
  | .storeImmInd w => keep (store (addr32 (vm.r ins.rs1 + ins.imm1)) w ins.imm2)
  | .loadImmJump => keep (jump (branchTo p vm.pc (addr32 ins.imm2) true) (some (ins.rs1, ins.imm1)))
  | .branchImm c => keep (jump (branchTo p vm.pc (addr32 ins.imm2) (c.eval (vm.r ins.rs1) ins.imm1)) none)
  | .sbrk =>
    match vm.mem.sbrk (vm.r ins.rs1).toNat with
    | (.error e, m) => (.error (.mem e), m)
    | (.ok start, m) => (write ins.rd (BitVec.ofNat 64 start), m)
  | .op2 o => keep (write ins.rd (o.eval (vm.r ins.rs1)))
  | .storeInd w => keep (store (addr32 (vm.r ins.rs2 + ins.imm1)) w (vm.r ins.rs1))
  | .loadInd k => keep (loadStep vm p (addr32 (vm.r ins.rs2 + ins.imm1)) k ins.rs1 k.valueInd)
  | .opImm o => keep (write ins.rs1 (o.eval (vm.r ins.rs1) (vm.r ins.rs2) ins.imm1))
  | .branch c => keep (jump (branchTo p vm.pc (addr32 ins.imm1) (c.eval (vm.r ins.rs1) (vm.r ins.rs2))) none)
  | .loadImmJumpInd => keep (dyn (addr32 (vm.r ins.rs2 + ins.imm2)) (some (ins.rs1, ins.imm1)))
  | .op3 o => keep (write ins.rd (o.eval (vm.r ins.rd) (vm.r ins.rs1) (vm.r ins.rs2)))

/-- `apply_gas_cost`, gas/mod.rs lines 8-23. `charge` is a `u64`. -/
def VM.charge (vm : VM) (charge : Nat) : Except VmErr Int × VM :=
  if charge ≥ 2 ^ 63 then (.error .tooLargeGas, vm)
  else if vm.gas - charge < -2 ^ 63 then (.error .gasOverflow, vm)
  else (.ok (vm.gas - charge), { vm with gas := vm.gas - charge })

/-- What `apply_state_change` returns. -/
inductive Applied where
  | gas (post : Int) | forbidden | pageFault (page : Nat) | err (e : VmErr)
deriving DecidableEq, Repr

/-- `apply_state_change`, state_change.rs lines 124-172. -/
def VM.apply (vm : VM) (c : Change) (should : Bool) : Applied × VM :=
  match vm.charge INST_GAS.toNat with
  | (.error e, vm') => (.err e, vm')
  | (.ok post, vm) =>
    if post < 0 ∨ !should then (.gas post, vm)
    else
      let finish (vm : VM) : Applied × VM :=
        let vm := { vm with pc := c.newPc }
        match c.reg with
        | some (i, v) => (.gas post, { vm with regs := vm.regs.set i v })
        | none => (.gas post, vm)
      match c.mem with
      | none => finish vm
      | some (off, bytes) =>
        if off < vm.mem.zone then (.forbidden, vm)
        else
          match vm.mem.writeBytes off bytes with
          | (.ok _, m) => finish { vm with mem := m }
          | (.error (.accessViolation a), m) => (.pageFault (a / m.pageSize * m.pageSize), { vm with mem := m })
          | (.error e, m) => (.err (.mem e), { vm with mem := m })

/-- `vm_state_should_change`, interpreter/mod.rs lines 63-66. -/
def Exit.changesState : Exit → Bool
  | .cont | .panic | .halt => true
  | _ => false

/-- One iteration of the loop of `invoke_general`, interpreter/mod.rs lines 52-113: `none` is
`continue`, `some` is `return`. -/
def iter (p : Prog) (vm : VM) : Option (Except VmErr Exit) × VM :=
  match p.instructionAt vm.pc with
  | none => (some (.ok .panic), vm)
  | some ins =>
    match singleStep vm p ins with
    | (.error e, m) => (some (.error e), { vm with mem := m })
    | (.ok (exit, change), m) =>
      match ({ vm with mem := m }).apply change exit.changesState with
      | (.forbidden, vm') => (some (.ok .panic), vm')
      | (.pageFault a, vm') => (some (.ok (.pageFault a)), { vm' with pc := 0 })
      | (.err e, vm') => (some (.error e), vm')
      | (.gas post, vm') =>
        if post < 0 then (some (.ok .outOfGas), vm')
        else if exit = .cont then (none, vm')
        else (some (.ok exit), vm')

/-- `invoke_general`, interpreter/mod.rs lines 48-115, cut off after `fuel` iterations
(`none`: not finished yet). -/
def runFuel (p : Prog) : Nat → VM → Option (Except VmErr Exit) × VM
  | 0, vm => (none, vm)
  | n + 1, vm =>
    match iter p vm with
    | (none, vm') => runFuel p n vm'
    | (some r, vm') => (some r, vm')

/-- `HostCallResult` / `HostCallVMStateChange`, state_change.rs lines 103-115. -/
structure HostResult where
  exit : Exit
  charge : Nat
  r7 : Option Reg := none
  r8 : Option Reg := none
  mem : Option (Nat × List UInt8) := none

/-- `regs[i] = v` if there is a value. -/
def setReg (regs : List Reg) (i : Nat) : Option Reg → List Reg
  | some v => regs.set i v
  | none => regs

/-- `apply_host_call_state_change`, state_change.rs lines 174-195. -/
def VM.applyHost (vm : VM) (c : HostResult) : Except VmErr Int × VM :=
  let vm := { vm with regs := setReg (setReg vm.regs 7 c.r7) 8 c.r8 }
  match c.mem with
  | none => vm.charge c.charge
  | some (off, bytes) =>
    match vm.mem.writeBytes off bytes with
    | (.error e, m) => (.error (.mem e), { vm with mem := m })
    | (.ok _, m) => ({ vm with mem := m }).charge c.charge

/-- A host-function table acting on a context: may fail with an error. -/
abbrev Host (σ : Type) := Nat → VM → σ → Except VmErr HostResult × σ

/-- One iteration of `invoke_extended`, invoke.rs lines 276-323, given the inner loop's fuel. `none` in
the first component is `continue`; the inner loop not finishing within its fuel is `.stuck`. -/
inductive ExtOut where
  | continue | done (r : Except VmErr Exit) | stuck
deriving DecidableEq

def extIter {σ : Type} (p : Prog) (host : Host σ) (fuel : Nat) (vm : VM) (s : σ) : ExtOut × VM × σ :=
  match runFuel p fuel vm with
  | (none, vm) => (.stuck, vm, s)
  | (some (.error e), vm) => (.done (.error e), vm, s)
  | (some (.ok (.hostCall h)), vm) =>
    match host h vm s with
    | (.error e, s) => (.done (.error e), vm, s)
    | (.ok res, s) =>
      if res.exit = .cont then
        match vm.applyHost res with
        | (.error e, vm) => (.done (.error e), vm, s)
        | (.ok post, vm) =>
          if post < 0 then (.done (.ok .outOfGas), vm, s)
          else (.continue, { vm with pc := p.nextPc vm.pc }, s)
      else if res.exit = .panic ∨ res.exit = .halt ∨ res.exit = .outOfGas then
        match vm.applyHost res with
        | (.error e, vm) => (.done (.error e), vm, s)
        | (.ok _, vm) => (.done (.ok res.exit), vm, s)
      else (.done (.error .invalidExit), vm, s)
  | (some (.ok exit), vm) => (.done (.ok exit), vm, s)

/-- `invoke_extended`, invoke.rs lines 267-324, with `n` outer iterations and `fuel` instructions in
each. -/
def extRun {σ : Type} (p : Prog) (host : Host σ) (fuel : Nat) : Nat → VM → σ → ExtOut × VM × σ
  | 0, vm, s => (.stuck, vm, s)
  | n + 1, vm, s =>
    match extIter p host fuel vm s with
    | (.continue, vm, s) => extRun p host fuel n vm s
    | r => r

/-- `PVMInvocationResult`, invoke.rs lines 26-105. -/
inductive Output where
  | outOfGas | panic | bytes (bs : List UInt8) | unavailable
deriving DecidableEq, Repr

/-- `gas_limit as SignedGas`. -/
def asI64 (x : Nat) : Int := if x < 2 ^ 63 then x else (x : Int) - 2 ^ 64

/-- `invoke_with_args`, invoke.rs lines 181-258, from the loaded program (the cache returns the same
value as loading; loading fails with `Err`). `init` is `new_with_formatted_program`. The result
carries `gas_used`; its subtraction would underflow (and wrap) if the counter exceeded the limit. -/
def invokeWithArgs {σ : Type} (p : Prog) (host : Host σ) (init : Option VM) (pc gasLimit : Nat) (s : σ) :
    Except VmErr (Output × Nat) × σ :=
  match init with
  | none => (.ok (.panic, 0), s)
  | some vm =>
    let vm := { vm with pc := pc, gas := asI64 gasLimit }
    let fuel := vm.gas.toNat + 1
    match extRun p host fuel fuel vm s with
    | (.done (.error e), _, s) => (.error e, s)
    | (.done (.ok exit), vm, s) =>
      let used := (gasLimit + 2 ^ 64 - (max 0 vm.gas).toNat) % 2 ^ 64
      if exit = .outOfGas then (.ok (.outOfGas, used), s)
      else if exit = .halt then
        let start := (vm.r 7).toNat
        let len := (vm.r 8).toNat
        if start ≥ 2 ^ 32 then (.error .regVal, s)
        else if !vm.mem.rangeReadable start len then (.ok (.unavailable, used), s)
        else
          match vm.mem.readBytes start len with
          | .error e => (.error (.mem e), s)
          | .ok bs => (.ok (.bytes bs, used), s)
      else (.ok (.panic, used), s)
    | (_, _, s) => (.error .host, s)

end Fastroll.Pvm
