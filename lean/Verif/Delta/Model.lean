import Verif.Acc.Props
import Verif.Svc.MergeModel

/-!
# Model of the accumulation of a whole block

Transcribes `/repo/pvm/pvm-invocation/src/accumulate/pipeline.rs` lines 72-169 (`accumulate_outer`),
430-643 (`accumulate_parallel`) and 682-729 (`accumulate_single_service`),
`/repo/transition/src/state/services.rs` lines 102-155 (`transition_on_accumulate`) and
`/repo/transition/src/state/privileges.rs`. Where `Acc.outerLoop` takes the execution of a service as a
parameter, here it is `Svc.accumulate` and the merge is `Svc.mergeRound`.

Simplifications.
* `Svc.Global` is the state before accumulation; accounts are written back one key at a time by
  `Svc.ApplyModel`.
* The operands a service can fetch are in `World.env`, which is given the transfers and the reports of
  the round; the identifier seed (`context/mod.rs` lines 240-258) is `World.seed`.
* The tasks of a round are spawned together and awaited in order of service. Each works on its own
  clone, so they are run one after the other here. If several things go wrong in one round the model
  may report another of the errors than the code; it reports one if and only if the code does.
* The statistics are modelled in `Verif.Stats`; the ring cache update is not modelled.
-/
namespace Fastroll.Delta
open Fastroll.Pvm Fastroll.Svc

/-- What the block's accumulation reads and never changes. -/
structure World where
  g : Global
  /-- The environment of a service, from the transfers and the reports of the round. -/
  env : Nat → List Transfer → List Acc.Report → Env
  /-- The environment that enters provided preimages: the slot and the hash. -/
  base : Env
  mach : Machine
  seed : Nat → Nat

/-- `PVMInvokeError`; `fuel` is not an error of the code but the model's loop being cut off. -/
inductive Err where
  | gas | service (e : VmErr) | merge | fuel
deriving DecidableEq, Repr

/-- A transfer without its memo, as `Acc` has it. -/
def xfer (t : Transfer) : Acc.Transfer := ⟨t.src, t.dst, t.amount, t.gas⟩

/-- `metered_services`, pipeline.rs lines 473-480, 498-501. -/
def metered (ts : List Transfer) (reports : List Acc.Report) (always : List (Nat × Nat)) : List Nat :=
  Acc.toSet ((reports.flatMap (·.digests)).map (·.svc) ++ (ts.map xfer).map (·.dst) ++ always.map (·.1))

/-- `privileged_services`, lines 483-495. -/
def privileged (u : PState Boxes) : List Nat :=
  u.assign.confirmed ++ [u.registrar.confirmed, u.designate.confirmed, u.manager]

/-- `all_service_ids`, lines 503-506. -/
def services (u : PState Boxes) (ts : List Transfer) (reports : List Acc.Report) (always : List (Nat × Nat)) : List Nat :=
  Acc.toSet (metered ts reports always ++ privileged u)

/-- `accumulate_single_service`, lines 682-729. -/
def single (W : World) (u : PState Boxes) (ts : List Transfer) (reports : List Acc.Report) (always : List (Nat × Nat)) (svc : Nat) :
    Except Err (Option AccResult) :=
  match Acc.serviceGas (ts.map xfer) reports always svc with
  | none => .error .gas
  | some limit =>
    match accumulate W.g (W.env svc ts reports) W.mach u
        { host := svc, gasLimit := limit, incoming := ts.filter fun t => t.dst == svc, seed := W.seed svc } with
    | .error e => .error (.service e)
    | .ok r => .ok r

/-- The tasks of a round, lines 512-537. -/
def runAll (W : World) (u : PState Boxes) (ts : List Transfer) (reports : List Acc.Report) (always : List (Nat × Nat)) :
    List Nat → Except Err (List AccResult)
  | [] => .ok []
  | svc :: rest =>
    match single W u ts reports always svc with
    | .error e => .error e
    | .ok r =>
      match runAll W u ts reports always rest with
      | .error e => .error e
      | .ok rs => .ok (r.toList ++ rs)

/-- `accumulate_parallel`, lines 430-643. -/
def parallel (W : World) (u : PState Boxes) (ts : List Transfer) (reports : List Acc.Report) (always : List (Nat × Nat)) :
    Except Err Merged :=
  match runAll W u ts reports always (services u ts reports always) with
  | .error e => .error e
  | .ok rs =>
    match mergeRound W.g W.base (metered ts reports always).contains u rs with
    | none => .error .merge
    | some m => .ok m

/-- The derived order of octet arrays. -/
def bytesLt : Bytes → Bytes → Bool
  | [], [] => false
  | [], _ :: _ => true
  | _ :: _, [] => false
  | a :: as, b :: bs => if a < b then true else if a = b then bytesLt as bs else false

/-- The derived order of `AccumulationOutputPair`, invoke_results.rs lines 18-22. -/
def pairLt (a b : Nat × Bytes) : Bool := if a.1 < b.1 then true else if a.1 = b.1 then bytesLt a.2 b.2 else false

/-- Insertion into the `BTreeSet` of outputs. -/
def insertPair (x : Nat × Bytes) : List (Nat × Bytes) → List (Nat × Bytes)
  | [] => [x]
  | y :: ys => if pairLt x y then x :: y :: ys else if x = y then y :: ys else y :: insertPair x ys

/-- What `accumulate_outer` keeps between rounds, lines 79-93. `always` is `none` once taken. -/
structure Outer where
  p : PState Boxes
  idx : Nat
  remaining : Nat
  transfers : List Transfer
  always : Option (List (Nat × Nat))
  gasPairs : List (Nat × Nat) := []
  outputs : List (Nat × Bytes) := []

inductive Out where
  | next (o : Outer) | stop (o : Outer) | fail (e : Err)

/-- One round of the loop, lines 95-157. -/
def iter (W : World) (reports : List Acc.Report) (o : Outer) : Out :=
  let hasReports := decide (o.idx < reports.length)
  let hasTransfers := !o.transfers.isEmpty
  if !hasReports && !hasTransfers && o.always.isNone then .stop o
  else
    let always := o.always.getD []
    let n := if hasReports then Acc.maxProcessable (reports.drop o.idx) o.remaining else 0
    if n = 0 && !hasTransfers && always.isEmpty then .stop { o with always := none }
    else
      let todo := if n > 0 then (reports.drop o.idx).take n else []
      match parallel W o.p o.transfers todo always with
      | .error e => .fail e
      | .ok m =>
        match Acc.checkedSum 0 (m.gas.map (·.2)), Acc.checkedSum 0 ((o.transfers.map xfer).map (·.gas)) with
        | some used, some tgas =>
          match Acc.checkedAdd o.remaining tgas with
          | none => .fail .gas
          | some r =>
            if used > r then .fail .gas
            else .next { p := m.st.u, idx := o.idx + n, remaining := r - used, transfers := m.transfers, always := none,
                         gasPairs := o.gasPairs ++ m.gas, outputs := m.hashes.foldl (fun l x => insertPair x l) o.outputs }
        | _, _ => .fail .gas

/-- `accumulate_outer`, lines 72-169, cut off after `fuel` rounds. -/
def loop (W : World) (reports : List Acc.Report) : Nat → Outer → Except Err Outer
  | 0, _ => .error .fuel
  | fuel + 1, o =>
    match iter W reports o with
    | .next o' => loop W reports fuel o'
    | .stop o' => .ok o'
    | .fail e => .error e

/-- `PrivilegedServices`. -/
structure Chi where
  manager : Nat
  assign : List Nat
  designate : Nat
  registrar : Nat
  always : List (Nat × Nat)

/-- `AccumulatePartialState::new`, partial_state.rs lines 1262-1281. -/
def start (χ : Chi) (queues : List (List Bytes)) : PState Boxes :=
  { boxes := [], staging := none, authQueue := queues, manager := χ.manager, assign := { confirmed := χ.assign },
    designate := { confirmed := χ.designate }, registrar := { confirmed := χ.registrar }, always := χ.always }

/-- The constants of the chain: `ACCUMULATION_GAS_ALL_CORES`, `ACCUMULATION_GAS_PER_CORE`, `CORE_COUNT`. -/
structure Consts where
  total : Nat
  perCore : Nat
  cores : Nat

def init (K : Consts) (χ : Chi) (queues : List (List Bytes)) : Outer :=
  { p := start χ queues, idx := 0, remaining := Acc.blockGas K.total K.perCore K.cores χ.always, transfers := [], always := some χ.always }

/-- Enough rounds for any block (`C70_rounds_end`). -/
def enough (reports : List Acc.Report) (o : Outer) : Nat := 2 + reports.length + o.remaining / 10

/-- What the block is left with: `AccumulateSummary` and the components written back. -/
structure Summary where
  count : Nat
  outputs : List (Nat × Bytes)
  gasPairs : List (Nat × Nat)
  boxes : Boxes
  χ : Chi
  queues : List (List Bytes)
  staging : List Bytes

/-- `transition_on_accumulate` and `run_privileged_transitions`, services.rs lines 102-155 and
privileges.rs lines 9-83. -/
def block (W : World) (K : Consts) (χ : Chi) (queues : List (List Bytes)) (staging : List Bytes) (reports : List Acc.Report) :
    Except Err Summary :=
  match loop W reports (enough reports (init K χ queues)) (init K χ queues) with
  | .error e => .error e
  | .ok o =>
    .ok { count := o.idx, outputs := o.outputs, gasPairs := o.gasPairs, boxes := o.p.boxes,
          χ := { manager := o.p.manager, assign := o.p.assign.confirmed, designate := o.p.designate.confirmed,
                 registrar := o.p.registrar.confirmed, always := o.p.always },
          queues := o.p.authQueue, staging := o.p.staging.getD staging }

/-- `transition_services_last_accumulate_at`, services.rs lines 396-421; the slot is that of the block. -/
def stamp (slot : Nat) (ids : List Nat) (a : Global) : Global :=
  { a with metas := fun s => if ids.contains s then (a.metas s).map fun m => { m with lastAcc := slot } else a.metas s }

end Fastroll.Delta
