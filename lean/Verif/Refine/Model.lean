import Verif.Svc.MergeModel

/-!
# Model of the host functions of refinement and of inner machines

Transcribes `/repo/pvm/pvm-host/src/host_functions/refine/mod.rs` (lines 30-546), `inner_vm.rs`,
`RefineHostContext` (`context/mod.rs` lines 493-536), `zero_pad_single_block` (`utils.rs` lines 6-20)
and `zero_pad` (`/repo/common/src/utils/zero_pad.rs` lines 1-18).

Simplifications.
* The map of inner machines is a function; `next_instance_id` does not reach `2^64`.
* `usize` is 64 bits wide and its arithmetic wraps (without overflow checks).
* A thread panic is the outcome `crash`. An allocation the machine cannot serve, though below
  `isize::MAX`, is not modelled.
* Memories with `page_size = 0` are those of `Memory::default()`: they have no data, so only
  `set_address_range_access` (reached by `sbrk`) comes to divide by the page size; `divides` says when.
* The entries of the refinement context that no function here reads are left out.
-/
namespace Fastroll.Refine
open Fastroll.Pvm Fastroll.Svc

/-- `SEGMENT_SIZE`, `MAX_EXPORTS_PER_PACKAGE`: common/src/constants/mod.rs lines 102, 114. -/
def SEGMENT : Nat := 4104
def MAX_EXPORTS : Nat := 3072
/-- `PAGE_SIZE`, `INIT_ZONE_SIZE`: pvm-types/src/constants.rs lines 37-40. -/
def PAGE : Nat := 4096
def ZONE : Nat := 65536

/-- `Memory::default()`, memory.rs line 39 (`derive(Default)`). -/
def noMem : Mem := { data := [], acc := [], pageSize := 0, zone := ZONE }

/-- `InnerPVM`, inner_vm.rs lines 4-12. -/
structure Inner where
  code : Bytes
  mem : Mem
  pc : Nat
deriving DecidableEq, Repr

/-- `InnerPVM::new`, inner_vm.rs lines 14-22. -/
def Inner.new (code : Bytes) (pc : Nat) : Inner := { code, mem := noMem, pc }

/-- `RefineHostContext`, context/mod.rs lines 493-506. -/
structure RCtx where
  nextId : Nat := 0
  machines : Nat → Option Inner := fun _ => none
  exports : List Bytes := []

/-- What refinement reads but never changes: the state at the lookup anchor's block, the lookup anchor's
slot, the refined service and the number of segments exported by earlier items. -/
structure REnv where
  state : Global
  anchor : Nat
  self : Nat
  exportOffset : Nat

/-- What a host call returns: a result, an `Err` that aborts the refinement, or a thread panic. -/
inductive Out where
  | ok (r : HostResult)
  | err (e : VmErr)
  | crash

/-- `pvm_instances.insert`. -/
def RCtx.put (x : RCtx) (n : Nat) (v : Option Inner) : RCtx :=
  { x with machines := fun k => if k = n then v else x.machines k }

/-- `add_pvm_instance`, context/mod.rs lines 526-531. -/
def RCtx.add (x : RCtx) (i : Inner) : Nat × RCtx := (x.nextId, { x.put x.nextId (some i) with nextId := x.nextId + 1 })

/-- `account_exists`. -/
def accountExists (g : Global) (s : Nat) : Bool := (g.metas s).isSome

/-- The account of `host_historical_lookup`, refine/mod.rs lines 65-79. -/
def histTarget (env : REnv) (vm : VM) : Option Nat :=
  if VM.n vm 7 = U64 - 1 ∧ accountExists env.state env.self = true then some env.self
  else
    match u32? vm 7 with
    | none => none
    | some s => if accountExists env.state s then some s else none

/-- `host_historical_lookup`, refine/mod.rs lines 39-119. -/
def hostHistorical (env : REnv) (vm : VM) : Out :=
  if noGas vm then .ok oog else
  match readHash vm 8 with
  | none => .ok hpanic
  | some h =>
    match histTarget env vm with
    | none => .ok (ret NONE)
    | some s =>
      match lookupHist env.state s env.anchor h with
      | none => .ok (ret NONE)
      | some data => .ok (serve vm data 9 10 11)

/-- `zero_pad_single_block`, utils.rs lines 6-20, with `zero_pad`: `none` when longer than one block.
`zero_pad` resizes to the next multiple of the block size, at least one block. -/
def padBlock (size : Nat) (bs : Bytes) : Option Bytes :=
  if bs.length > size then none
  else
    let out := if bs = [] then size else (bs.length + size - 1) / size * size
    let padded := bs.take out ++ List.replicate (out - bs.length) 0
    if padded.length ≠ size then none else some padded

/-- `host_export`, refine/mod.rs lines 124-167. -/
def hostExport (env : REnv) (vm : VM) (x : RCtx) : Out × RCtx :=
  if noGas vm then (.ok oog, x) else
  match u32? vm 7 with
  | none => (.ok hpanic, x)
  | some a =>
    match readMem vm a (min (VM.n vm 8) SEGMENT) with
    | none => (.ok hpanic, x)
    | some bs =>
      let next := x.exports.length + env.exportOffset
      if next ≥ MAX_EXPORTS then (.ok (ret FULL), x) else
      match padBlock SEGMENT bs with
      | none => (.err .host, x)
      | some seg => (.ok (ret next), { x with exports := x.exports ++ [seg] })

/-- `host_machine`, refine/mod.rs lines 172-214. -/
def hostMachine (vm : VM) (x : RCtx) : Out × RCtx :=
  if noGas vm then (.ok oog, x) else
  match u32? vm 7 with
  | none => (.ok hpanic, x)
  | some a =>
    match readMem vm a (VM.n vm 8) with
    | none => (.ok hpanic, x)
    | some code =>
      match deblob code with
      | .error .panic => (.crash, x)
      | .error _ => (.ok (ret HUH), x)
      | .ok _ =>
        let (n, x) := x.add (.new code (VM.n vm 9))
        (.ok (ret n), x)

/-- `host_peek`, refine/mod.rs lines 219-267. -/
def hostPeek (vm : VM) (x : RCtx) : Out × RCtx :=
  if noGas vm then (.ok oog, x) else
  match u32? vm 8 with
  | none => (.ok hpanic, x)
  | some o =>
    let z := VM.n vm 10
    if !vm.mem.rangeWritable o z then (.ok hpanic, x) else
    match x.machines (VM.n vm 7) with
    | none => (.ok (ret WHO), x)
    | some i =>
      match u32? vm 9 with
      | none => (.ok (ret OOB), x)
      | some s =>
        if !i.mem.rangeReadable s z then (.ok (ret OOB), x) else
        match i.mem.readBytes s z with
        | .error _ => (.ok (ret OOB), x)
        | .ok bs => (.ok { ret OK with mem := some (o, bs) }, x)

/-- `host_poke`, refine/mod.rs lines 272-322. -/
def hostPoke (vm : VM) (x : RCtx) : Out × RCtx :=
  if noGas vm then (.ok oog, x) else
  match u32? vm 8 with
  | none => (.ok hpanic, x)
  | some s =>
    let z := VM.n vm 10
    match readMem vm s z with
    | none => (.ok hpanic, x)
    | some bs =>
      match x.machines (VM.n vm 7) with
      | none => (.ok (ret WHO), x)
      | some i =>
        match u32? vm 9 with
        | none => (.ok (ret OOB), x)
        | some o =>
          if !i.mem.rangeWritable o z then (.ok (ret OOB), x) else
          match i.mem.writeBytes o bs with
          | (.error _, m) => (.ok (ret OOB), x.put (VM.n vm 7) (some { i with mem := m }))
          | (.ok _, m) => (.ok (ret OK), x.put (VM.n vm 7) (some { i with mem := m }))

/-- The access types of the modes, refine/mod.rs lines 381-386. -/
def modeAccess (mode : Nat) : Access :=
  if mode = 0 then .inaccessible else if mode = 1 ∨ mode = 3 then .readOnly else .readWrite

/-- The end of `host_pages`, refine/mod.rs lines 380-393: the access types of pages `lo..hi`. -/
def pagesAccess (x : RCtx) (n : Nat) (i : Inner) (m : Mem) (lo hi mode : Nat) : Out × RCtx :=
  match m.setPageRange lo hi (modeAccess mode) with
  | (.error _, m) => (.ok (ret HUH), x.put n (some { i with mem := m }))
  | (.ok _, m) => (.ok (ret OK), x.put n (some { i with mem := m }))

/-- `host_pages`, refine/mod.rs lines 326-394. `vec![0u8; size]` panics above `isize::MAX`. -/
def hostPages (vm : VM) (x : RCtx) : Out × RCtx :=
  if noGas vm then (.ok oog, x) else
  match x.machines (VM.n vm 7) with
  | none => (.ok (ret WHO), x)
  | some i =>
    let start := VM.n vm 8
    let count := VM.n vm 9
    let mode := VM.n vm 10
    let stop := (start + count) % U64
    if mode > 4 ∨ start < 16 ∨ stop ≥ U32 / PAGE then (.ok (ret HUH), x) else
    if mode > 2 ∧ allPages i.mem.pageReadable start (stop - start) = false then (.ok (ret HUH), x) else
    if mode < 3 then
      let size := count * PAGE % U64
      if size ≥ 2 ^ 63 then (.crash, x) else
      match i.mem.writeBytes (start * PAGE % U64 % U32) (List.replicate size 0) with
      | (.error _, m) => (.ok (ret HUH), x.put (VM.n vm 7) (some { i with mem := m }))
      | (.ok _, m) => pagesAccess x (VM.n vm 7) i m start stop mode
    else pagesAccess x (VM.n vm 7) i i.mem start stop mode

/-- The next instruction comes to divide by the page size of a memory that has none: an `sbrk` that
gives access to a non-empty range (memory.rs lines 107-120, 371-383). -/
def divides (p : Prog) (vm : VM) : Bool :=
  match p.instructionAt vm.pc with
  | none => false
  | some ins =>
    if ins.op = .sbrk ∧ vm.mem.pageSize = 0 then
      let size := (vm.r ins.rs1).toNat
      let start := vm.mem.getBreak size
      let stop := (start + size % 2 ^ 32) % 2 ^ 32
      !(vm.mem.heapStart ≠ 0 ∧ stop ≥ vm.mem.stackStart) && start < stop
    else false

/-- `invoke_general` on an inner machine, with at most `fuel` instructions; `none` as an outcome is the
thread panic. -/
def runInner (p : Prog) : Nat → VM → Option (Except VmErr Exit) × VM
  | 0, vm => (some (.error .host), vm)
  | n + 1, vm =>
    if divides p vm then (none, vm)
    else
      match iter p vm with
      | (none, vm') => runInner p n vm'
      | (some r, vm') => (some r, vm')

/-- The thirteen registers stored after the gas, refine/mod.rs lines 423-431: eight octets each. -/
def readRegs (vm : VM) (o : Nat) : Nat → Option (List Reg)
  | 0 => some []
  | n + 1 =>
    match vm.mem.readBytes (o + 8 + 8 * (12 - n)) 8 with
    | .error _ => none
    | .ok bs =>
      match readRegs vm o n with
      | none => none
      | some rs => some (BitVec.ofNat 64 (Pvm.fromLE bs) :: rs)

/-- The machine as handed back to the host, refine/mod.rs lines 466-471: gas and registers, eight octets
each. -/
def handBack (vm : VM) : Bytes :=
  Codec.leBytes 8 (vm.gas % 2 ^ 64).toNat ++ (vm.regs.map fun r => Codec.leBytes 8 r.toNat).flatten

/-- `HostCallType::from_u8` followed by `as RegValue`, hostcall.rs lines 41-80: unknown numbers
become `INVALID = 255`. -/
def hostNumber (h : Nat) : Nat := if h ≤ 26 ∨ h = 100 then h else 255

/-- How the inner machine ended, as told to the host, refine/mod.rs lines 476-517: register 7,
register 8 and the inner program counter. -/
def invokeCodes (p : Prog) (pc : Nat) : Exit → Option (Nat × Option Nat × Nat)
  | .hostCall h => some (3, some (hostNumber h), p.nextPc pc)
  | .pageFault a => some (2, some a, pc)
  | .outOfGas => some (4, none, pc)
  | .panic => some (1, none, pc)
  | .halt => some (0, none, pc)
  | .cont => none

/-- The end of `host_invoke`, lines 462-517. -/
def invokeEnd (x : RCtx) (n o : Nat) (i : Inner) (p : Prog) (e : Exit) (vm' : VM) : Out × RCtx :=
  match invokeCodes p vm'.pc e with
  | none => (.err .invalidExit, x.put n (some { i with mem := vm'.mem, pc := vm'.pc }))
  | some (r7, r8, pc) =>
    (.ok { exit := .cont, charge := BASE_GAS, r7 := some (reg r7), r8 := r8.map reg, mem := some (o, handBack vm') },
     x.put n (some { i with mem := vm'.mem, pc }))

/-- The running part of `host_invoke`, lines 444-460: `try_into::<i64>` of the gas limit, loading the
program, running it. -/
def invokeRun (x : RCtx) (n o : Nat) (i : Inner) (gas : Nat) (regs : List Reg) : Out × RCtx :=
  if gas ≥ 2 ^ 63 then (.err .tooLargeGas, x) else
  match loadProgram i.code with
  | .error .panic => (.crash, x)
  | .error e => (.err (.load e), x)
  | .ok p =>
    match runInner p (gas + 2) { regs, mem := i.mem, pc := i.pc, gas } with
    | (none, _) => (.crash, x)
    | (some (.error e), _) => (.err e, x)
    | (some (.ok e), vm') => invokeEnd x n o i p e vm'

/-- `host_invoke`, refine/mod.rs lines 402-518. -/
def hostInvoke (vm : VM) (x : RCtx) : Out × RCtx :=
  if noGas vm then (.ok oog, x) else
  match u32? vm 8 with
  | none => (.ok hpanic, x)
  | some o =>
    if !vm.mem.rangeWritable o 112 then (.ok hpanic, x) else
    match vm.mem.readBytes o 8 with
    | .error _ => (.ok hpanic, x)
    | .ok g =>
      match readRegs vm o 13 with
      | none => (.ok hpanic, x)
      | some regs =>
        match x.machines (VM.n vm 7) with
        | none => (.ok (ret WHO), x)
        | some i => invokeRun x (VM.n vm 7) o i (Pvm.fromLE g) regs

/-- `host_expunge`, refine/mod.rs lines 521-545. -/
def hostExpunge (vm : VM) (x : RCtx) : Out × RCtx :=
  if noGas vm then (.ok oog, x) else
  match x.machines (VM.n vm 7) with
  | none => (.ok (ret WHO), x)
  | some i => (.ok (ret i.pc), x.put (VM.n vm 7) none)

/-- The dispatch of `execute_host_function`, `/repo/pvm/pvm-interface/src/invoke.rs` lines 327-510, for
refinement's own functions. The other numbers (`gas`, `fetch`, `log` and the unavailable ones) do not
touch the context; their result is a parameter. -/
def refineCall (other : Nat → VM → HostResult) (env : REnv) (h : Nat) (vm : VM) (x : RCtx) : Out × RCtx :=
  if h = 6 then (hostHistorical env vm, x)
  else if h = 7 then hostExport env vm x
  else if h = 8 then hostMachine vm x
  else if h = 9 then hostPeek vm x
  else if h = 10 then hostPoke vm x
  else if h = 11 then hostPages vm x
  else if h = 12 then hostInvoke vm x
  else if h = 13 then hostExpunge vm x
  else (.ok (other h vm), x)

/-- A sequence of host calls of one refinement, each from whatever machine state the program has
reached. Calls after an abort or a crash do not happen. -/
def refineCalls (other : Nat → VM → HostResult) (env : REnv) : List (Nat × VM) → RCtx → RCtx
  | [], x => x
  | (h, vm) :: cs, x =>
    match refineCall other env h vm x with
    | (.ok _, x') => refineCalls other env cs x'
    | (_, x') => x'

end Fastroll.Refine
