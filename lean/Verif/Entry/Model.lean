import Verif.Fetch.Model
import Verif.Refine.Model
import Verif.Wr.Model
import Verif.Pvm.LayoutModel
/-!
# Model of the entry points of the virtual machine

Transcribes `/repo/pvm/pvm-interface/src/invoke.rs` (the table of host calls, the program cache and the
beginning of `invoke_with_args`; its loop is `Pvm.invokeWithArgs`), the decoder of
`/repo/pvm/pvm-core/src/program/types/formatted_program.rs`, `/repo/pvm/pvm-invocation/src/refine/mod.rs` and
`/repo/pvm/pvm-invocation/src/is_authorized/mod.rs`.

* The hash is a parameter. The program cache is a list of pairs; it may forget entries at any time.
* A thread panic is the outcome `panic`, an `Err` is `err`.
-/
namespace Fastroll.Entry
open Fastroll.Codec Fastroll.Pvm Fastroll.Svc
open Fastroll.Wire (WorkPackage WorkItem WorkResult readBytes accountCodeDec vecU8Enc arrEnc)
open Fastroll.Wr (Out RefineRes)

abbrev Bytes := List UInt8

/-! ## Standard programs -/

/-- `FormattedProgram`, formatted_program.rs lines 7-24. -/
structure Std where
  fp : FProg
  code : Bytes

/-- Lines 26-51. -/
def stdDec : Dec Std :=
  (fixedDecode 32 3).bind fun o => (fixedDecode 32 3).bind fun w => (fixedDecode 16 2).bind fun z =>
  (fixedDecode 32 3).bind fun s => (readBytes o).bind fun od => (readBytes w).bind fun wd =>
  (fixedDecode 32 4).bind fun n => (readBytes n).bind fun c =>
  .pure { fp := { staticSize := o, heapSize := w, extraPages := z, stackSize := s, staticData := od, heapData := wd }, code := c }

/-- `from_standard_program`, lines 55-62. -/
def fromStandard (blob : Bytes) : Option Std :=
  match stdDec blob with
  | .ok (s, []) => some s
  | _ => none

/-- `CachedProgram`, invoke.rs lines 31-34. -/
structure Loaded where
  std : Std
  prog : Prog

/-- invoke.rs lines 199-207: decoding, the size check and loading. -/
def loadStd (blob : Bytes) : Out Loaded :=
  match fromStandard blob with
  | none => .err
  | some s =>
    if !s.fp.sizeValid then .err
    else
      match loadProgram s.code with
      | .ok p => .ok { std := s, prog := p }
      | .error .panic => .panic
      | .error _ => .err

/-! ## The program cache -/

abbrev Cache := List (Bytes × Loaded)

def Cache.get (c : Cache) (h : Bytes) : Option Loaded := (c.find? fun e => e.1 == h).map Prod.snd

/-- invoke.rs lines 193-215. -/
def cachedLoad (H : Bytes → Bytes) (c : Cache) (blob : Bytes) : Out Loaded × Cache :=
  match c.get (H blob) with
  | some l => (.ok l, c)
  | none =>
    match loadStd blob with
    | .ok l => (.ok l, (H blob, l) :: c)
    | .err => (.err, c)
    | .panic => (.panic, c)

/-- What happens to the cache: a program is asked for, or some entries are forgotten. -/
inductive CacheOp where
  | use (blob : Bytes)
  | forget (keep : Bytes → Bool)

def CacheOp.run (H : Bytes → Bytes) (c : Cache) : CacheOp → Cache
  | .use b => (cachedLoad H c b).2
  | .forget keep => c.filter fun e => keep e.1

/-! ## Host calls -/

/-- `InvocationType`, invoke.rs lines 106-110. -/
inductive Kind where
  | authorize
  | refine
  | accumulate
  deriving DecidableEq

/-- `is_valid_host_call_type`, lines 113-165, by the numbers of pvm-types/src/hostcall.rs lines 4-39. -/
def allowed : Kind → Nat → Bool
  | .authorize, h => [0, 1, 100].contains h
  | .accumulate, h => [0, 1, 3, 4, 2, 5, 14, 15, 16, 17, 18, 19, 20, 21, 22, 23, 24, 25, 26, 100].contains h
  | .refine, h => [0, 1, 6, 7, 8, 9, 10, 11, 12, 13, 100].contains h

/-- `execute_host_function`, lines 327-342 and 505-507: the number is checked, unknown and unavailable ones
answer `WHAT`. -/
def execute {σ : Type} (kind : Kind) (fns : Nat → VM → σ → Refine.Out × σ) (h : Nat) (vm : VM) (s : σ) : Refine.Out × σ :=
  if allowed kind (Refine.hostNumber h) then fns (Refine.hostNumber h) vm s else (.ok (ret WHAT), s)

/-- `host_gas`, general/mod.rs lines 34-41. -/
def gasCall (vm : VM) : HostResult := if noGas vm then oog else ret (vm.gas.toNat - BASE_GAS)

/-- `host_fetch`, general/mod.rs lines 44-139. -/
def fetchCall (k : Fetch.Consts) (ctx : Fetch.Ctx) (vm : VM) : Refine.Out :=
  if noGas vm then .ok oog
  else
    match Fetch.fetch k ctx (VM.n vm 10) (VM.n vm 11) (VM.n vm 12) with
    | .data b => .ok (serve vm b 7 8 9)
    | .none => .ok (ret NONE)
    | .err => .err .host
    | .panic => .crash

/-- The functions of refinement, lines 344-412 and 504 (`log` answers `WHAT` whatever it reads). -/
def refineFns (k : Fetch.Consts) (a : Fetch.RefineArgs) (env : Refine.REnv) (h : Nat) (vm : VM) (x : Refine.RCtx) :
    Refine.Out × Refine.RCtx :=
  if h = 0 then (.ok (gasCall vm), x)
  else if h = 1 then (fetchCall k (.refine a) vm, x)
  else Refine.refineCall (fun _ _ => ret WHAT) env h vm x

/-- The functions of authorization. -/
def authFns (k : Fetch.Consts) (p : WorkPackage) (h : Nat) (vm : VM) (x : Unit) : Refine.Out × Unit :=
  if h = 0 then (.ok (gasCall vm), x)
  else if h = 1 then (fetchCall k (.auth p) vm, x)
  else (.ok (ret WHAT), x)

/-- Host functions that may crash, for the interpreter; the second component tells that one did. -/
def hostOf {σ : Type} (f : Nat → VM → σ → Refine.Out × σ) : Host (σ × Bool) := fun h vm s =>
  match f h vm s.1 with
  | (.ok r, x) => (.ok r, (x, s.2))
  | (.err e, x) => (.error e, (x, s.2))
  | (.crash, x) => (.error .host, (x, true))

/-! ## `Ψ_M` -/

/-- `new_with_formatted_program`, pvm.rs lines 27-54 and 121-126. -/
def initVM (l : Loaded) (args : Bytes) : Option VM :=
  match initMemory l.std.fp args with
  | .error _ => none
  | .ok m => some { regs := (List.range 13).map fun i => BitVec.ofNat 64 (initReg args.length i), mem := m, pc := 0, gas := 0 }

/-- The end of an invocation. -/
def finish {σ : Type} (r : Except VmErr (Output × Nat) × (σ × Bool)) : Out (Output × Nat) × σ :=
  match r with
  | (.ok o, (x, _)) => (.ok o, x)
  | (.error _, (x, true)) => (.panic, x)
  | (.error _, (x, false)) => (.err, x)

/-- `invoke_with_args`, lines 181-258. -/
def psiM {σ : Type} (H : Bytes → Bytes) (c : Cache) (blob : Bytes) (kind : Kind) (fns : Nat → VM → σ → Refine.Out × σ)
    (pc gas : Nat) (args : Bytes) (x : σ) : Out (Output × Nat) × σ × Cache :=
  match cachedLoad H c blob with
  | (.err, c) => (.err, x, c)
  | (.panic, c) => (.panic, x, c)
  | (.ok l, c) =>
    match finish (invokeWithArgs l.prog (hostOf (execute kind fns)) (initVM l args) pc gas (x, false)) with
    | (o, x) => (o, x, c)

/-! ## `Ψ_R` and `Ψ_I` -/

/-- `RefineVMArgs`, refine/mod.rs lines 23-36; derived. -/
def refineArgsEnc (core item service : Nat) (payload packageHash : Bytes) : Except Err Bytes :=
  natEnc core +++ natEnc item +++ natEnc service +++ vecU8Enc payload +++ arrEnc packageHash

/-- `RefineInvokeArgs`, besides what fetch serves: the core and the exports of earlier items. -/
structure RArgs where
  core : Nat
  fetch : Fetch.RefineArgs
  offset : Nat

def bad : RefineRes := { gas := 0, output := .error .bad, exports := [] }
def big : RefineRes := { gas := 0, output := .error .big, exports := [] }

/-- Lines 170-181. -/
def refineEnd (o : Output) (gas : Nat) (x : Refine.RCtx) : RefineRes :=
  match o with
  | .bytes b => { gas := gas, output := .output b, exports := x.exports }
  | .unavailable => { gas := gas, output := .output [], exports := x.exports }
  | .outOfGas => { gas := gas, output := .error .outOfGas, exports := [] }
  | .panic => { gas := gas, output := .error .panic, exports := [] }

/-- `get_account_code_by_lookup`, state/src/manager.rs lines 678-690. -/
def codeByLookup (g : Global) (service slot : Nat) (hash : Bytes) : Out (Option Bytes) :=
  match lookupHist g service slot hash with
  | none => .ok none
  | some b =>
    match accountCodeDec b with
    | .ok ((_, code), _) => .ok (some code)
    | .error .panic => .panic
    | .error _ => .err

/-- Lines 139-181: running the code. -/
def refineRun (H : Bytes → Bytes) (k : Fetch.Consts) (g : Global) (a : RArgs) (w : WorkItem) (code : Bytes)
    (c : Cache) : Out RefineRes × Cache :=
  match Wire.WorkPackage.enc a.fetch.package with
  | .error _ => (.err, c)
  | .ok pb =>
    match refineArgsEnc a.core a.fetch.item w.service w.payload (H pb) with
    | .error _ => (.err, c)
    | .ok args =>
      match psiM H c code .refine (refineFns k a.fetch ⟨g, a.fetch.package.ctx.lookupSlot, w.service, a.offset⟩)
          0 w.refineGas args {} with
      | (.ok (o, u), x, c) => (.ok (refineEnd o u x), c)
      | (.err, _, c) => (.err, c)
      | (.panic, _, c) => (.panic, c)

/-- `RefineInvocation::refine`, lines 99-183. -/
def refine (H : Bytes → Bytes) (k : Fetch.Consts) (g : Global) (a : RArgs) (c : Cache) : Out RefineRes × Cache :=
  match a.fetch.package.items[a.fetch.item]? with
  | none => (.ok bad, c)
  | some w =>
    if !Refine.accountExists g w.service then (.ok bad, c)
    else
      match codeByLookup g w.service a.fetch.package.ctx.lookupSlot w.codeHash with
      | .err => (.err, c)
      | .panic => (.panic, c)
      | .ok none => (.ok bad, c)
      | .ok (some code) => if code.length > MAX_CODE then (.ok big, c) else refineRun H k g a w code c

/-- `WorkExecutionResult::from`, invoke.rs lines 94-103. -/
def resultOf : Output → WorkResult
  | .outOfGas => .error .outOfGas
  | .panic => .error .panic
  | .bytes b => .output b
  | .unavailable => .output []

/-- `MAX_IS_AUTHORIZED_CODE_SIZE`, `IS_AUTHORIZED_GAS_PER_WORK_PACKAGE`: common/src/constants/mod.rs lines 80, 85. -/
def AUTH_CODE : Nat := 64000
def AUTH_GAS : Nat := 50000000

/-- is_authorized/mod.rs lines 92-112. -/
def authRun (H : Bytes → Bytes) (k : Fetch.Consts) (p : WorkPackage) (core : Nat) (code : Bytes)
    (c : Cache) : Out (Nat × WorkResult) × Cache :=
  match fixedEncode 2 core with
  | .error _ => (.err, c)
  | .ok args =>
    match psiM H c code .authorize (authFns k p) 0 AUTH_GAS args () with
    | (.ok (o, u), _, c) => (.ok (u, resultOf o), c)
    | (.err, _, c) => (.err, c)
    | (.panic, _, c) => (.panic, c)

/-- `IsAuthorizedInvocation::is_authorized`, lines 68-113. -/
def authorize (H : Bytes → Bytes) (k : Fetch.Consts) (g : Global) (p : WorkPackage) (core : Nat)
    (c : Cache) : Out (Nat × WorkResult) × Cache :=
  match codeByLookup g p.authService p.ctx.lookupSlot p.authCode with
  | .err => (.err, c)
  | .panic => (.panic, c)
  | .ok none => (.ok (0, .error .bad), c)
  | .ok (some code) => if code.length > AUTH_CODE then (.ok (0, .error .big), c) else authRun H k p core code c

end Fastroll.Entry
