import Verif.Pvm.MemModel
/-!
# Model of the standard program's initial memory

Transcribes `/repo/pvm/pvm-interface/src/pvm.rs` lines 26-126 and
`/repo/pvm/pvm-core/src/program/types/formatted_program.rs` lines 8-73. `as MemAddress` is
reduction modulo `2^32`; `usize` values stay below `2^33`, so their arithmetic is exact.
-/
namespace Fastroll.Pvm

/-- `PAGE_SIZE`, `INIT_ZONE_SIZE`, `INIT_INPUT_SIZE`: pvm-types/src/constants.rs lines 31-40. -/
def PAGE : Nat := 2 ^ 12
def ZONE : Nat := 2 ^ 16
def INPUT : Nat := 2 ^ 24

/-- `MemAddress` conversion (`as u32`). -/
def u32 (x : Nat) : Nat := x % 2 ^ 32

/-- `page_align` and `zone_align`, pvm-core/src/utils.rs lines 50-59. -/
def pageAlign (x : Nat) : Nat := PAGE * ((x + PAGE - 1) / PAGE)
def zoneAlign (x : Nat) : Nat := ZONE * ((x + ZONE - 1) / ZONE)

/-- `FormattedProgram`, formatted_program.rs lines 8-25 (without the code). -/
structure FProg where
  staticSize : Nat
  heapSize : Nat
  extraPages : Nat
  stackSize : Nat
  staticData : List UInt8
  heapData : List UInt8

/-- `is_program_size_valid`, formatted_program.rs lines 64-73. -/
def FProg.sizeValid (p : FProg) : Bool :=
  5 * ZONE + zoneAlign p.staticSize + zoneAlign (p.heapSize + p.extraPages * PAGE) + zoneAlign p.stackSize + INPUT ≤ 2 ^ 32

/-- The error of `new_with_formatted_program`. -/
inductive InitErr where
  | argsSize | invalidProgram | mem (e : MemErr)
deriving DecidableEq

/-- `?` on a memory operation. -/
def okMem : Except MemErr Unit × Mem → Except InitErr Mem
  | (.ok _, m) => .ok m
  | (.error e, _) => .error (.mem e)

/-- `setup_memory_layout`, pvm.rs lines 56-119. -/
def setupMemory (m0 : Mem) (p : FProg) (args : List UInt8) : Except InitErr Mem := do
  let oStart := u32 ZONE
  let oEnd := u32 (oStart + u32 (pageAlign p.staticSize))
  let m ← okMem (m0.setAddrRange oStart oEnd .readWrite)
  let m ← okMem (m.writeBytes oStart p.staticData)
  let m ← okMem (m.setAddrRange oStart oEnd .readOnly)
  let wStart := u32 (2 * ZONE + zoneAlign p.staticSize)
  let wEnd := u32 (u32 (wStart + u32 (pageAlign p.heapSize)) + u32 (u32 p.extraPages * u32 PAGE))
  let m ← okMem (m.setAddrRange wStart wEnd .readWrite)
  let m ← okMem (m.writeBytes wStart p.heapData)
  let m := { m with heapStart := wStart, heapEnd := wEnd }
  let sStart := u32 (2 ^ 32 - 2 * ZONE - INPUT - pageAlign p.stackSize)
  let sEnd := u32 (2 ^ 32 - 2 * ZONE - INPUT)
  let m ← okMem (m.setAddrRange sStart sEnd .readWrite)
  let m := { m with stackStart := sStart }
  let aStart := u32 (2 ^ 32 - ZONE - INPUT)
  let aEnd := u32 (aStart + u32 (pageAlign args.length))
  let m ← okMem (m.setAddrRange aStart aEnd .readWrite)
  let m ← okMem (m.writeBytes aStart args)
  okMem (m.setAddrRange aStart aEnd .readOnly)

/-- `new_with_formatted_program`, pvm.rs lines 28-54 (memory component). -/
def initMemory (p : FProg) (args : List UInt8) : Except InitErr Mem :=
  if args.length > INPUT then .error .argsSize
  else if !p.sizeValid then .error .invalidProgram
  else setupMemory (Mem.new (2 ^ 32) PAGE ZONE) p args

/-- `initialize_registers`, pvm.rs lines 121-126: the initial value of each register. -/
def initReg (argsLen i : Nat) : Nat :=
  if i = 0 then 2 ^ 32 - 2 ^ 16
  else if i = 1 then 2 ^ 32 - (2 * ZONE + INPUT)
  else if i = 7 then 2 ^ 32 - (ZONE + INPUT)
  else if i = 8 then argsLen
  else 0

end Fastroll.Pvm
