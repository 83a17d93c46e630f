import Verif.Stf.Model
import Verif.Delta.Model
import Verif.Svc.ApplyModel

/-!
# Model of the whole node: the state transition of a block with the execution of services

`Stf` leaves open what executing services does to accounts and privileges. Here it is what `Delta` does:
this file transcribes the rest of `transition_on_accumulate`
(`/repo/transition/src/state/services.rs` lines 102-155), the joints between its steps and the block
(`/repo/node/src/roles/executor.rs` lines 230-300), the preimages of the block
(services.rs lines 433-503, `/repo/extrinsics/src/validation/preimages.rs`) and what the guarantees read of
an account (`/repo/extrinsics/src/validation/guarantees.rs` lines 221-240).

Simplifications.
* An error while the sandboxes are written back would abort the block. The entry concerned is taken for
  missing here; `C72_accounts` shows that no such error occurs.
* Hashes are numbers in `Stf` and octets in `Delta`; `num`, `oct` and `key` translate.
* The loader, the data served by `fetch` and the seed of new identifiers are parameters.
-/
namespace Fastroll.Node
open Fastroll.Svc (Global Boxes)
open Fastroll.Safrole (VKey)
open Fastroll.Pvm (VM)

abbrev Bytes := List UInt8

/-- δ and χ. -/
structure Realm where
  accounts : Global
  χ : Delta.Chi

/-- The constants, cryptography and machine of a chain. -/
structure Par (σ η ρ : Type) where
  S : Safrole.Par
  P : Reports.Par
  H : Safrole.Heap
  C : Safrole.Crypto Nat ρ η
  hash : Reports.Report → Nat
  ver : Nat → Judge.Msg → σ → Bool
  verAvail : Nat → Nat → List Bool → σ → Bool
  blake : Bytes → Bytes
  keccak : Bytes → Bytes
  octets : η → Bytes
  num : Bytes → Nat
  oct : Nat → Bytes
  key : Bytes → VKey Nat
  full : Reports.Report → Stats.Report
  K : Delta.Consts
  par : Svc.Params
  mach : Svc.Machine
  fetch : Nat → η → Nat → List Svc.Transfer → List Acc.Report → VM → Option Bytes
  seed : Nat → η → Nat → Nat

variable {σ η ρ : Type}

/-- What the preimages entered in slot `slot` read; nothing is fetched. -/
def Par.base (N : Par σ η ρ) (slot : Nat) : Svc.Env := { par := N.par, slot := slot, hash := N.blake, fetch := fun _ => none }

/-- What the block's accumulation reads: the accounts before it, its slot and its entropy. -/
def Par.delta (N : Par σ η ρ) (a : Global) (slot : Nat) (e : η) : Delta.World where
  g := a
  env := fun s ts rs => { par := N.par, slot := slot, hash := N.blake, fetch := N.fetch slot e s ts rs }
  base := N.base slot
  mach := N.mach
  seed := N.seed slot e

/-- The accounts with the sandboxes written back, services.rs lines 132-145. -/
def writeBack (g : Global) (bs : Boxes) : Global where
  metas := fun s => (Svc.applyMeta g bs s).getD none
  storage := fun s k => (Svc.applyStorage g bs s k).getD none
  preimages := fun s k => (Svc.applyPreimages g bs s k).getD none
  lookups := fun s k => (Svc.applyLookups g bs s k).getD none

/-- `AccumulateStats::from_accumulated_reports`, services.rs lines 156-159; of the digests it reads the services. -/
def accStats (reports : List Acc.Report) (gas : List (Nat × Nat)) : List (Nat × UInt64 × UInt32) :=
  Stats.fromAccumulated
    (reports.map fun r => { core := 0, bundleLen := 0, segCount := 0, digests := r.digests.map fun d => { service := d.svc, gas := 0, imports := 0, xts := 0, xtOctets := 0, exports := 0 } })
    (gas.map fun p => (p.1, UInt64.ofNat p.2))

/-- `transition_on_accumulate` and `run_privileged_transitions`, services.rs lines 102-155, privileges.rs lines 9-83. -/
def accumulate (N : Par σ η ρ) (i : Stf.AccIn η Realm) : Option (Stf.AccOut Realm) :=
  let W := N.delta i.world.accounts i.slot i.entropy
  let o := Delta.init N.K i.world.χ (i.queues.map fun q => q.map N.oct)
  match Delta.loop W i.reports (Delta.enough i.reports o) o with
  | .error _ => none
  | .ok o =>
    some { world :=
             { accounts := writeBack W.g o.p.boxes,
               χ := { manager := o.p.manager, assign := o.p.assign.confirmed, designate := o.p.designate.confirmed,
                      registrar := o.p.registrar.confirmed, always := o.p.always } },
           queues := o.p.authQueue.map fun q => q.map N.num,
           staged := o.p.staging.map fun l => l.map N.key,
           count := o.idx,
           outputs := o.outputs,
           stats := accStats (i.reports.take o.idx) o.gasPairs }

/-- `transition_services_last_accumulate_at`, services.rs lines 396-421. -/
def touch (w : Realm) (ids : List Nat) (slot : Nat) : Realm := { w with accounts := Delta.stamp slot ids w.accounts }

/-- The extrinsic is sorted, preimages.rs line 44: no entry comes after a greater one. -/
def sorted : List (Nat × Bytes) → Bool
  | [] => true
  | [_] => true
  | x :: y :: l => !Delta.pairLt y x && sorted (y :: l)

/-- No entry is repeated, lines 48-53. -/
def distinct : List (Nat × Bytes) → Bool
  | [] => true
  | x :: l => !l.contains x && distinct l

/-- `validate_entry`, lines 64-100: against the accounts before the block. -/
def wanted (hash : Bytes → Bytes) (a : Global) (e : Nat × Bytes) : Bool :=
  (a.preimages e.1 (hash e.2)).isNone && a.lookups e.1 (hash e.2, e.2.length % 2 ^ 32) == some []

/-- `transition_services_integrate_preimages`, services.rs lines 433-503. -/
def preimages (N : Par σ η ρ) (before after : Realm) (slot : Nat) (es : List (Nat × Bytes)) : Option Realm :=
  if sorted es && distinct es && es.all (wanted N.blake before.accounts) then
    some { after with accounts := Svc.integrate (N.base slot) es after.accounts }
  else none

/-- The code hash and the gas an item of a service must come with, guarantees.rs lines 221-240. -/
def service (N : Par σ η ρ) (w : Realm) (s : Nat) : Option (Nat × Nat) :=
  (w.accounts.metas s).map fun m => (N.num m.codeHash, m.gasAcc)

/-- The state transition of `Stf` with all of this. -/
def world (N : Par σ η ρ) : Stf.World σ η ρ Realm (List (Nat × Bytes)) where
  S := N.S
  P := N.P
  H := N.H
  C := N.C
  hash := N.hash
  ver := N.ver
  verAvail := N.verAvail
  blake := N.blake
  keccak := N.keccak
  octets := N.octets
  num := N.num
  service := service N
  full := N.full
  sizes := fun es => es.map fun e => { service := e.1, len := e.2.length }
  accumulate := accumulate N
  touch := touch
  preimages := preimages N

/-- The state of a node, its blocks and the chains it imports. -/
abbrev State (η ρ : Type) := Stf.State η ρ Realm
abbrev Blk (σ η : Type) := Stf.Blk σ η (List (Nat × Bytes))
abbrev Blocks (σ η : Type) := List (Option (Nat → Nat → Bool) × Blk σ η)

/-- The import of a chain: the final state and what each block accumulated. -/
def run (N : Par σ η ρ) (bs : Blocks σ η) (s : State η ρ) : Except Stf.Err (State η ρ × List (List Acc.Report)) := Stf.run (world N) bs s

end Fastroll.Node
