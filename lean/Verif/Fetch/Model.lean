import Verif.Wire.Model
/-!
# Model of the data served by `fetch`

Transcribes `/repo/pvm/pvm-host/src/host_functions/general/mod.rs` lines 44-110 and 142-239 (which datum a
call asks for; the window written to memory is in `Verif.Svc.HostModel`),
`/repo/common/src/constants/constants_encoder.rs` and `encode_for_fetch_hostcall`,
`/repo/common/src/types/workloads/work_package.rs` lines 167-183.

* Registers are natural numbers below `2^64`; `read_reg_as_usize` does not fail on a 64-bit machine.
* The map from extrinsic infos to extrinsic data is a function.
-/
namespace Fastroll.Fetch
open Fastroll.Codec
open Fastroll.Wire

/-- The constants of the chain, in the order in which the encoder writes them. -/
structure Consts where
  minBalancePerItem : Nat
  minBalancePerOctet : Nat
  minBasicBalance : Nat
  coreCount : Nat
  preimageExpiration : Nat
  epochLength : Nat
  accGasPerCore : Nat
  authGas : Nat
  refineGas : Nat
  accGasAllCores : Nat
  historyLength : Nat
  maxItems : Nat
  maxDependencies : Nat
  maxTicketsPerXt : Nat
  maxLookupAge : Nat
  ticketsPerValidator : Nat
  maxAuthPool : Nat
  slotDuration : Nat
  authQueueSize : Nat
  rotationPeriod : Nat
  maxXtsPerPackage : Nat
  reportTimeout : Nat
  validatorCount : Nat
  maxAuthCode : Nat
  maxPackageSize : Nat
  maxServiceCode : Nat
  erasureChunkSize : Nat
  maxImports : Nat
  segmentChunks : Nat
  maxOutput : Nat
  memoSize : Nat
  maxExports : Nat
  contestDuration : Nat

/-- `encode_constants_for_fetch_hostcall`, lines 14-50. -/
def constsEnc : Enc Consts := fun k =>
  fixedEncode 8 k.minBalancePerItem +++ fixedEncode 8 k.minBalancePerOctet +++ fixedEncode 8 k.minBasicBalance +++
  fixedEncode 2 k.coreCount +++ fixedEncode 4 k.preimageExpiration +++ fixedEncode 4 k.epochLength +++
  fixedEncode 8 k.accGasPerCore +++ fixedEncode 8 k.authGas +++ fixedEncode 8 k.refineGas +++
  fixedEncode 8 k.accGasAllCores +++ fixedEncode 2 k.historyLength +++ fixedEncode 2 k.maxItems +++
  fixedEncode 2 k.maxDependencies +++ fixedEncode 2 k.maxTicketsPerXt +++ fixedEncode 4 k.maxLookupAge +++
  fixedEncode 2 k.ticketsPerValidator +++ fixedEncode 2 k.maxAuthPool +++ fixedEncode 2 k.slotDuration +++
  fixedEncode 2 k.authQueueSize +++ fixedEncode 2 k.rotationPeriod +++ fixedEncode 2 k.maxXtsPerPackage +++
  fixedEncode 2 k.reportTimeout +++ fixedEncode 2 k.validatorCount +++ fixedEncode 4 k.maxAuthCode +++
  fixedEncode 4 k.maxPackageSize +++ fixedEncode 4 k.maxServiceCode +++ fixedEncode 4 k.erasureChunkSize +++
  fixedEncode 4 k.maxImports +++ fixedEncode 4 k.segmentChunks +++ fixedEncode 4 k.maxOutput +++
  fixedEncode 4 k.memoSize +++ fixedEncode 4 k.maxExports +++ fixedEncode 4 k.contestDuration

/-- `encode_for_fetch_hostcall`, work_package.rs lines 169-182. -/
def summaryEnc : Enc WorkItem := fun w =>
  fixedEncode 4 w.service +++ arrEnc w.codeHash +++ fixedEncode 8 w.refineGas +++ fixedEncode 8 w.accGas +++
  fixedEncode 2 w.exports +++ fixedEncode 2 w.imports.length +++ fixedEncode 2 w.xts.length +++
  fixedEncode 4 w.payload.length

/-- `RefineInvokeArgs`, with the refinement entropy of the host context. -/
structure RefineArgs where
  item : Nat
  package : WorkPackage
  trace : Bytes
  imports : List (List Bytes)
  xtData : XtInfo → Option Bytes
  entropy : Bytes

/-- `InvocationContext`: is-authorized, refine, accumulate. -/
inductive Ctx where
  | auth (p : WorkPackage)
  | refine (a : RefineArgs)
  | acc (entropy : Bytes) (inputs : List AccInput)

/-- What a call gets: a datum, NONE, an `Err` that ends the invocation, or an index out of range. -/
inductive Got where
  | data (b : Bytes)
  | none
  | err
  | panic
  deriving DecidableEq

/-- `x.encode()?` -/
def hard (x : Except Err Bytes) : Got :=
  match x with
  | .ok b => .data b
  | .error _ => .err

/-- `x.encode().ok()`, then `None => continue_none!()`. -/
def soft (x : Except Err Bytes) : Got :=
  match x with
  | .ok b => .data b
  | .error _ => .none

def ofOption (x : Option Bytes) : Got :=
  match x with
  | some b => .data b
  | none => .none

/-- The loop over the items, lines 153-163; `none` is the early `return Ok(None)`. -/
def summaries : List WorkItem → Option (List Bytes)
  | [] => some []
  | w :: ws =>
    match summaryEnc w with
    | .error _ => none
    | .ok b => (summaries ws).map (b :: ·)

/-- Selector 11: `Vec<Vec<u8>>` through the generic codec. -/
def summariesData (p : WorkPackage) : Got :=
  match summaries p.items with
  | none => .none
  | some bs => soft (vecEnc vecU8Enc bs)

/-- `fetch_work_package_data`, lines 142-186. -/
def packageData (p : WorkPackage) (id r11 : Nat) : Got :=
  if id = 7 then soft (WorkPackage.enc p)
  else if id = 8 then .data p.config
  else if id = 9 then .data p.token
  else if id = 10 then soft (RefineCtx.enc p.ctx)
  else if id = 11 then summariesData p
  else if id = 12 then
    match p.items[r11]? with
    | none => .none
    | some w => soft (summaryEnc w)
  else if id = 13 then ofOption (p.items[r11]?.map WorkItem.payload)
  else .none

/-- `items[i].extrinsic_data_info[j]` looked up in the map; `none` when `j` is out of range. -/
def xtOf (a : RefineArgs) (w : WorkItem) (j : Nat) : Got :=
  match w.xts[j]? with
  | none => .none
  | some x => ofOption (a.xtData x)

/-- `fetch_imports_extrinsics_data`, lines 188-239. -/
def importData (a : RefineArgs) (id r11 r12 : Nat) : Got :=
  if id = 3 then
    match a.package.items[r11]? with
    | none => .none
    | some w => xtOf a w r12
  else if id = 4 then
    match a.package.items[a.item]? with
    | none => .panic
    | some w => xtOf a w r11
  else if id = 5 then
    match a.imports[r11]? with
    | none => .none
    | some l => ofOption l[r12]?
  else if id = 6 then
    match a.imports[a.item]? with
    | none => .panic
    | some l => ofOption l[r11]?
  else .none

/-- The datum of `host_fetch`, lines 55-110. -/
def fetch (k : Consts) (ctx : Ctx) (r10 r11 r12 : Nat) : Got :=
  match ctx with
  | .auth p =>
    if r10 = 0 then hard (constsEnc k)
    else if 7 ≤ r10 ∧ r10 ≤ 13 then packageData p r10 r11
    else .none
  | .refine a =>
    if r10 = 0 then hard (constsEnc k)
    else if r10 = 1 then .data a.entropy
    else if r10 = 2 then .data a.trace
    else if 3 ≤ r10 ∧ r10 ≤ 6 then importData a r10 r11 r12
    else if 7 ≤ r10 ∧ r10 ≤ 13 then packageData a.package r10 r11
    else .none
  | .acc entropy inputs =>
    if r10 = 0 then hard (constsEnc k)
    else if r10 = 1 then .data entropy
    else if r10 = 14 then hard (vecEnc AccInput.enc inputs)
    else if r10 = 15 then
      match inputs[r11]? with
      | none => .none
      | some i => hard (AccInput.enc i)
    else .none

end Fastroll.Fetch
