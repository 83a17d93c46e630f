import Verif.Fetch.Model
import Verif.Wire.Props
/-!
# What the Gray Paper's `fetch` serves

`Ω_Y` with its optional arguments: `p` the package, `n` the entropy, `r` the authorizer's trace, `i` the item,
`imports` and `xts` the segments and extrinsics of the items, `inputs` those of accumulation.
-/
namespace Fastroll.Fetch.Paper
open Fastroll.Codec (paperFixed)
open Fastroll.Wire

/-- The constants, by the paper's letters. -/
def constants (k : Consts) : Bytes :=
  paperFixed 8 k.minBalancePerItem ++ paperFixed 8 k.minBalancePerOctet ++ paperFixed 8 k.minBasicBalance ++
  paperFixed 2 k.coreCount ++ paperFixed 4 k.preimageExpiration ++ paperFixed 4 k.epochLength ++
  paperFixed 8 k.accGasPerCore ++ paperFixed 8 k.authGas ++ paperFixed 8 k.refineGas ++
  paperFixed 8 k.accGasAllCores ++ paperFixed 2 k.historyLength ++ paperFixed 2 k.maxItems ++
  paperFixed 2 k.maxDependencies ++ paperFixed 2 k.maxTicketsPerXt ++ paperFixed 4 k.maxLookupAge ++
  paperFixed 2 k.ticketsPerValidator ++ paperFixed 2 k.maxAuthPool ++ paperFixed 2 k.slotDuration ++
  paperFixed 2 k.authQueueSize ++ paperFixed 2 k.rotationPeriod ++ paperFixed 2 k.maxXtsPerPackage ++
  paperFixed 2 k.reportTimeout ++ paperFixed 2 k.validatorCount ++ paperFixed 4 k.maxAuthCode ++
  paperFixed 4 k.maxPackageSize ++ paperFixed 4 k.maxServiceCode ++ paperFixed 4 k.erasureChunkSize ++
  paperFixed 4 k.maxImports ++ paperFixed 4 k.segmentChunks ++ paperFixed 4 k.maxOutput ++
  paperFixed 4 k.memoSize ++ paperFixed 4 k.maxExports ++ paperFixed 4 k.contestDuration

/-- `S(w)`. -/
def summary (w : WorkItem) : Bytes :=
  paperFixed 4 w.service ++ w.codeHash ++ paperFixed 8 w.refineGas ++ paperFixed 8 w.accGas ++
  paperFixed 2 w.exports ++ paperFixed 2 w.imports.length ++ paperFixed 2 w.xts.length ++
  paperFixed 4 w.payload.length

/-- Deferred transfers: sender, receiver, amount, memo, gas. -/
def transfer (t : Transfer) : Bytes :=
  paperFixed 4 t.sender ++ paperFixed 4 t.dest ++ paperFixed 8 t.amount ++ t.memo ++ paperFixed 8 t.gas

def input : AccInput → Bytes
  | .operand o => 0 :: Wire.Spec.operand o
  | .transfer t => 1 :: transfer t

structure Args where
  p : Option WorkPackage := none
  n : Option Bytes := none
  r : Option Bytes := none
  i : Nat := 0
  imports : Option (List (List Bytes)) := none
  xts : Option (List (List Bytes)) := none
  inputs : Option (List AccInput) := none

/-- An element of a list of lists. -/
def at2 (l : List (List Bytes)) (a b : Nat) : Option Bytes := (l[a]?).bind fun x => x[b]?

/-- The datum that selector `s` with indices `a` and `b` asks for. -/
def fetch (k : Consts) (A : Args) (s a b : Nat) : Option Bytes :=
  match s with
  | 0 => some (constants k)
  | 1 => A.n
  | 2 => A.r
  | 3 => A.xts.bind fun x => at2 x a b
  | 4 => A.xts.bind fun x => at2 x A.i a
  | 5 => A.imports.bind fun x => at2 x a b
  | 6 => A.imports.bind fun x => at2 x A.i a
  | 7 => A.p.map Wire.Spec.package
  | 8 => A.p.map WorkPackage.config
  | 9 => A.p.map WorkPackage.token
  | 10 => A.p.map fun p => Wire.Spec.ctx p.ctx
  | 11 => A.p.map fun p => Wire.Spec.var summary p.items
  | 12 => A.p.bind fun p => (p.items[a]?).map summary
  | 13 => A.p.bind fun p => (p.items[a]?).map WorkItem.payload
  | 14 => A.inputs.map (Wire.Spec.var input)
  | 15 => A.inputs.bind fun l => (l[a]?).map input
  | _ => none

/-! ## The arguments of the three invocations, and values the Rust types can hold -/

structure ConstsOk (k : Consts) : Prop where
  w8 : ∀ x ∈ [k.minBalancePerItem, k.minBalancePerOctet, k.minBasicBalance, k.accGasPerCore, k.authGas, k.refineGas,
    k.accGasAllCores], x < 2 ^ 64
  w2 : ∀ x ∈ [k.coreCount, k.historyLength, k.maxItems, k.maxDependencies, k.maxTicketsPerXt, k.ticketsPerValidator,
    k.maxAuthPool, k.slotDuration, k.authQueueSize, k.rotationPeriod, k.maxXtsPerPackage, k.reportTimeout,
    k.validatorCount], x < 2 ^ 16
  w4 : ∀ x ∈ [k.preimageExpiration, k.epochLength, k.maxLookupAge, k.maxAuthCode, k.maxPackageSize, k.maxServiceCode,
    k.erasureChunkSize, k.maxImports, k.segmentChunks, k.maxOutput, k.memoSize, k.maxExports, k.contestDuration], x < 2 ^ 32

/-- An item whose counts fit its summary. -/
structure SummaryOk (w : WorkItem) : Prop where
  item : Wire.Spec.ItemOk w
  imports : w.imports.length < 2 ^ 16
  xts : w.xts.length < 2 ^ 16
  payload : w.payload.length < 2 ^ 32

structure PackageOk (P : Params) (p : WorkPackage) : Prop where
  package : Wire.Spec.PackageOk P p
  summaries : ∀ w ∈ p.items, SummaryOk w

/-- The extrinsic data of the items, from the map. -/
def xtsOf (d : XtInfo → Option Bytes) (p : WorkPackage) : List (List Bytes) :=
  p.items.map fun w => w.xts.map fun x => (d x).getD []

/-- Arguments of refinement: the item exists, there is a list of imports for each item, and the data of every
extrinsic is known. -/
structure RefineOk (P : Params) (a : RefineArgs) : Prop where
  package : PackageOk P a.package
  item : a.item < a.package.items.length
  imports : a.imports.length = a.package.items.length
  known : ∀ w ∈ a.package.items, ∀ x ∈ w.xts, ∃ b, a.xtData x = some b

structure TransferOk (t : Transfer) : Prop where
  sender : t.sender < 2 ^ 32
  dest : t.dest < 2 ^ 32
  amount : t.amount < 2 ^ 64
  memo : t.memo.length = 128
  gas : t.gas < 2 ^ 64

/-- Inputs of accumulation; an operand's trace has no octet of 128 or more (finding on C49). -/
def InputOk : AccInput → Prop
  | .operand o => OperandOk o ∧ ∀ x ∈ o.trace, x.toNat < 128
  | .transfer t => TransferOk t

def CtxOk (P : Params) : Ctx → Prop
  | .auth p => PackageOk P p
  | .refine a => RefineOk P a
  | .acc _ inputs => inputs.length < 2 ^ 64 ∧ ∀ i ∈ inputs, InputOk i

/-- What the paper passes to `fetch` in the three invocations. -/
def argsOf : Ctx → Args
  | .auth p => { p := some p }
  | .refine a => { p := some a.package, n := some a.entropy, r := some a.trace, i := a.item, imports := some a.imports, xts := some (xtsOf a.xtData a.package) }
  | .acc n inputs => { n := some n, inputs := some inputs }

end Fastroll.Fetch.Paper
