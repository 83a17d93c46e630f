import Verif.Safrole.Model
import Verif.Reports.Model
import Verif.Acc.Model
import Verif.Stats.Model
import Verif.Shuffle.Model
import Verif.Merkle.Model

/-!
# Model of the whole state transition of a block

Transcribes `/repo/node/src/roles/executor.rs` lines 72-315 and 402-411 (what runs in which order, and what is handed
from one step to the next), and for each step which version of each state component it reads: `get_x_clean` is the
state before the block, `get_x` and `with_mut_x` the state now:
* `/repo/transition/src/state/{timeslot,disputes,entropy,validators,history,safrole,reports,accumulate,authorizer,services,statistics}.rs`,
* `/repo/extrinsics/src/validation/{disputes,tickets,assurances,guarantees}.rs`,
* `/repo/extrinsics/src/utils/guarantor_rotation.rs` lines 58-117,
* `/repo/state/src/types/history.rs` lines 185-209.
What a step computes is taken from the models of the areas (Judge, Safrole, Reports, Acc, Stats, Shuffle, Merkle).

Simplifications.
* The tasks run one after the other (C64 is about their schedules).
* Service accounts and privileges are an abstract `ω`: what executing services does to them is the parameter
  `accumulate`, the preimages of a block `preimages`, the slot of the last accumulation `touch`.
* Hashes and keys are numbers, as in Reports; the belt of accumulation roots is octets, as in Merkle, and `num`
  reads a hash as a number.
* Of a report the fields of `Reports.Report` are kept; `sched` drops those the scheduler does not read and `full`
  gives those only the statistics read.
* The ring root is a function of the pending set (C40 is about the cache in front of it).  That the slot has begun
  is checked against the clock (C62, C68) and not here.
-/
namespace Fastroll.Stf
open Fastroll.Safrole (VKey)
open Fastroll.Merkle (Bytes)

/-- The state of the chain, with its paper names: τ, η, γ, ι, κ, λ, ψ, ρ, β (history and belt), α, φ, ω, ξ, θ, π, and
δ, χ together. -/
structure State (η ρ ω : Type) where
  slot : Nat
  e0 : η
  e1 : η
  e2 : η
  e3 : η
  saf : Safrole.Saf Nat ρ
  staging : List (VKey Nat)
  active : List (VKey Nat)
  past : List (VKey Nat)
  judged : Judge.Disputes
  pending : List (Option Reports.Pending)
  hist : List Reports.Hist
  belt : List (Option Bytes)
  pools : List (List Nat)
  queues : List (List Nat)
  ready : List (List Acc.Entry)
  done : List (List Nat)
  outputs : List (Nat × Bytes)
  stats : Stats.Stats
  world : ω

/-- A block: hash of the header and the fields of the header the transition reads, and the five extrinsics. -/
structure Blk (σ η π : Type) where
  header : Nat
  parent : Nat
  parentRoot : Nat
  slot : Nat
  author : Nat
  vrf : η
  tickets : List Safrole.Entry
  disputes : Judge.Xt σ
  assurances : List (Reports.Assurance σ)
  guarantees : List (Reports.Guarantee σ)
  preimages : π

/-- What `transition_on_accumulate` is given and reads: services.rs lines 102-125, pipeline.rs line 438,
accumulate/mod.rs line 165. -/
structure AccIn (η ω : Type) where
  world : ω
  queues : List (List Nat)
  staging : List (VKey Nat)
  slot : Nat
  entropy : η
  reports : List Acc.Report

/-- What it leaves: the accounts and privileges, the authorizer queues, a new staging set, the number of reports
accumulated, the outputs by service and the statistics by service. -/
structure AccOut (ω : Type) where
  world : ω
  queues : List (List Nat)
  staged : Option (List (VKey Nat))
  count : Nat
  outputs : List (Nat × Bytes)
  stats : List (Nat × UInt64 × UInt32)

/-- Constants and everything the transition is parametric in. -/
structure World (σ η ρ ω π : Type) where
  S : Safrole.Par
  P : Reports.Par
  H : Safrole.Heap
  C : Safrole.Crypto Nat ρ η
  hash : Reports.Report → Nat
  ver : Nat → Judge.Msg → σ → Bool
  verAvail : Nat → Nat → List Bool → σ → Bool
  blake : Bytes → Bytes
  keccak : Bytes → Bytes
  octets : η → Bytes
  num : Bytes → Nat
  service : ω → Nat → Option (Nat × Nat)
  full : Reports.Report → Stats.Report
  sizes : π → List Stats.Preimage
  accumulate : AccIn η ω → Option (AccOut ω)
  touch : ω → List Nat → Nat → ω
  preimages : ω → ω → Nat → π → Option ω

inductive Err
  | slot | disputes | sealers | tickets | reports (e : Reports.Err) | accumulate | count | statistics | preimages

variable {σ η ρ ω π : Type}

/-! ## Before the header is committed to: executor.rs lines 72-183 -/

/-- `transition_timeslot`, timeslot.rs lines 11-51; two slots 0 are let through. -/
def timeslot (s : State η ρ ω) (slot : Nat) : Except Err (State η ρ ω) :=
  if s.slot = 0 ∧ slot = 0 then .ok { s with slot := slot }
  else if slot ≤ s.slot then .error .slot
  else .ok { s with slot := slot }

/-- What the validation of disputes reads: extrinsics/src/validation/disputes.rs lines 72-126, all of it before the
block. -/
def judgeEnv (W : World σ η ρ ω π) (s0 : State η ρ ω) : Judge.Env σ :=
  { ver := W.ver, V := W.P.V, active := s0.active.map VKey.ed, past := s0.past.map VKey.ed, epoch := s0.slot / W.S.epoch }

/-- `transition_disputes`, disputes.rs lines 17-39. -/
def disputes (W : World σ η ρ ω π) (s0 s : State η ρ ω) (b : Blk σ η π) : Except Err (State η ρ ω) :=
  match Judge.transition (judgeEnv W s0) s0.judged b.disputes with
  | .error _ => .error .disputes
  | .ok judged => .ok { s with judged := judged }

/-- `transition_epoch_entropy_on_epoch_change`, entropy.rs lines 13-32. -/
def rotateEntropy (fresh : Bool) (s : State η ρ ω) : State η ρ ω :=
  if fresh then { s with e3 := s.e2, e2 := s.e1, e1 := s.e0 } else s

/-- `transition_past_set`, validators.rs lines 36-53. -/
def pastSet (fresh : Bool) (s0 s : State η ρ ω) : State η ρ ω := if fresh then { s with past := s0.active } else s

/-- `transition_active_set`, validators.rs lines 11-28. -/
def activeSet (fresh : Bool) (s0 s : State η ρ ω) : State η ρ ω := if fresh then { s with active := s0.saf.pending } else s

/-- `transition_block_history_parent_root`, history.rs lines 22-43. -/
def parentRoot (s : State η ρ ω) (root : Nat) : State η ρ ω := { s with hist := Reports.setRoot root s.hist }

/-- `handle_new_epoch_transition`, safrole.rs lines 57-101: the offenders and the active set of now, the staging set
and Safrole state of before. -/
def newEpoch (W : World σ η ρ ω π) (s0 s : State η ρ ω) : Except Err (State η ρ ω) :=
  let pending := Safrole.nullify W.C.zero s.judged.punish s0.staging
  match Safrole.nextSealers W.H W.S W.C s0.saf s0.slot s.slot s.active s.e2 with
  | none => .error .sealers
  | some sealers => .ok { s with saf := { pending := pending, root := W.C.ringRoot pending, sealers := sealers, acc := [] } }

/-- `handle_ticket_accumulation`, safrole.rs lines 139-171. -/
def tickets (W : World σ η ρ ω π) (s : State η ρ ω) (b : Blk σ η π) : Except Err (State η ρ ω) :=
  match Safrole.validate W.H W.S (s.slot % W.S.epoch) s.saf.acc b.tickets with
  | .error _ => .error .tickets
  | .ok new => .ok { s with saf := { s.saf with acc := Safrole.addMany W.H W.S.epoch s.saf.acc new } }

/-- `run_state_transition_pre_header_commitment`, executor.rs lines 75-183. -/
def pre (W : World σ η ρ ω π) (s0 : State η ρ ω) (b : Blk σ η π) : Except Err (State η ρ ω) := do
  let s ← timeslot s0 b.slot
  let fresh := decide (s0.slot / W.S.epoch < s.slot / W.S.epoch)
  let s ← disputes W s0 s b
  let s := rotateEntropy fresh s
  let s := pastSet fresh s0 s
  let s := activeSet fresh s0 s
  let s := parentRoot s b.parentRoot
  let s ← if fresh then newEpoch W s0 s else .ok s
  tickets W s b

/-! ## After it: executor.rs lines 186-315 -/

/-- The constants of the rotation. -/
def rotation (W : World σ η ρ ω π) : Shuffle.Spec :=
  { validators := W.S.validators, cores := W.P.C, epochLength := W.S.epoch, rotationPeriod := W.P.rotation }

/-- Cores and keys of a validator set, guarantor_rotation.rs lines 69-78, 104-115; that the shuffle does not fail is
C08. -/
def assigned (W : World σ η ρ ω π) (punished : List Nat) (set : List (VKey Nat)) (e : η) (slot : Nat) : Reports.Assignment :=
  { keys := (Safrole.nullify W.C.zero punished set).map VKey.ed,
    cores := (Shuffle.permute (rotation W) W.blake (W.octets e) slot).getD [] }

/-- `current_guarantor_assignments`, lines 59-79. -/
def currentAssignment (W : World σ η ρ ω π) (s : State η ρ ω) : Reports.Assignment := assigned W s.judged.punish s.active s.e2 s.slot

/-- `previous_guarantor_assignments`, lines 82-116. -/
def previousAssignment (W : World σ η ρ ω π) (s : State η ρ ω) : Reports.Assignment :=
  let before := s.slot - W.P.rotation
  if before / W.S.epoch = s.slot / W.S.epoch then assigned W s.judged.punish s.active s.e2 before
  else assigned W s.judged.punish s.past s.e3 before

/-- What the reports part reads: disputes and assurances from before (assurances.rs line 99), assignments from now,
the accumulation history and queue and the accounts from before (guarantees.rs lines 137-138, 227).  The queues and
the root of the belt are not read by it. -/
def repEnv (W : World σ η ρ ω π) (anc : Option (Nat → Nat → Bool)) (s0 s : State η ρ ω) : Reports.Env σ :=
  { hash := W.hash, judge := judgeEnv W s0, verAvail := W.verAvail, current := currentAssignment W s, previous := previousAssignment W s,
    service := W.service s0.world, accumulated := s0.done.flatten, queued := s0.ready.flatten.map fun e => e.1.pkg, ancestors := anc,
    queues := [], mmr := 0 }

def repBlk (b : Blk σ η π) : Reports.Block σ :=
  { header := b.header, parent := b.parent, parentRoot := b.parentRoot, slot := b.slot, disputes := b.disputes,
    assurances := b.assurances, guarantees := b.guarantees }

/-- What the guarantees are validated against, guarantees.rs lines 120-160. -/
def ctx (W : World σ η ρ ω π) (anc : Option (Nat → Nat → Bool)) (s0 s : State η ρ ω) (b : Blk σ η π) (pend : List (Option Reports.Pending)) : Reports.Ctx σ :=
  ⟨W.P, repEnv W anc s0 s, s.slot, pend, s0.pending, s0.pools, s.hist, b.guarantees.map Reports.Guarantee.report⟩

/-- The reports part, lines 206-227: gives the available reports and the guarantors' keys. -/
def reports (W : World σ η ρ ω π) (anc : Option (Nat → Nat → Bool)) (s0 s : State η ρ ω) (b : Blk σ η π) :
    Except Err (State η ρ ω × List Reports.Report × List Nat) :=
  match Reports.eliminate (repEnv W anc s0 s) s0.judged s.pending b.disputes with
  | .error e => .error (.reports e)
  | .ok pend1 =>
    match Reports.clearAvailable W.P (repEnv W anc s0 s) (repBlk b) pend1 with
    | .error e => .error (.reports e)
    | .ok (pend2, available) =>
      match Reports.validateGuarantees (ctx W anc s0 s b pend2) b.guarantees with
      | .error e => .error (.reports e)
      | .ok keys => .ok ({ s with pending := Reports.place s.slot pend2 b.guarantees }, available, keys)

/-- `transition_epoch_entropy_per_block`, entropy.rs lines 41-58. -/
def mixEntropy (W : World σ η ρ ω π) (s : State η ρ ω) (b : Blk σ η π) : State η ρ ω := { s with e0 := W.C.mix s.e0 b.vrf }

/-- What the scheduler reads of a report. -/
def sched (r : Reports.Report) : Acc.Report :=
  { pkg := r.pkg, prereqs := r.prereqs, lookup := r.lookup.map Prod.fst, digests := r.digests.map fun d => { svc := d.service, gas := d.gas } }

/-- Accumulation, lines 230-262: also gives what was accumulated and the statistics. -/
def accumulation (W : World σ η ρ ω π) (s0 s : State η ρ ω) (available : List Reports.Report) :
    Except Err (State η ρ ω × List Acc.Report × List (Nat × UInt64 × UInt32)) :=
  let c := Acc.collect (available.map sched) s.ready s.done s.slot
  match W.accumulate { world := s.world, queues := s.queues, staging := s.staging, slot := s.slot, entropy := s.e0, reports := c.1 } with
  | none => .error .accumulate
  | some o =>
    if o.count > c.1.length then .error .count
    else
      let last := Acc.packageHashes (c.1.take o.count)
      .ok ({ s with world := o.world, queues := o.queues, staging := o.staged.getD s.staging, done := Acc.historyAdd s.done last,
                    ready := Acc.queueTransition s.ready c.2 last s0.slot s.slot, outputs := o.outputs },
        c.1.take o.count, o.stats)

/-- `transition_auth_pool`, authorizer.rs lines 16-61. -/
def pools (W : World σ η ρ ω π) (s : State η ρ ω) (b : Blk σ η π) : State η ρ ω :=
  { s with pools := Reports.nextPools W.P s.queues s.slot b.guarantees s.pools 0 }

/-- `transition_onchain_statistics`, called at lines 284-298. -/
def statistics (W : World σ η ρ ω π) (s0 s : State η ρ ω) (b : Blk σ η π) (available : List Reports.Report) (keys : List Nat)
    (acc : List (Nat × UInt64 × UInt32)) : Except Err (State η ρ ω) :=
  match Stats.transition W.P.V W.P.C
      { newEpoch := decide (s0.slot / W.S.epoch < s.slot / W.S.epoch), author := b.author, tickets := b.tickets.length, preimages := W.sizes b.preimages,
        assurances := b.assurances.map fun a => { validator := a.voter, bits := a.bits },
        guarantees := b.guarantees.map fun g => W.full g.report, available := available.map W.full, reporters := keys,
        active := s.active.map VKey.ed, accStats := acc } s.stats with
  | none => .error .statistics
  | some st => .ok { s with stats := st }

/-- `transition_services_integrate_preimages`, services.rs lines 433-503: validated against the accounts before the
block. -/
def integrate (W : World σ η ρ ω π) (s0 s : State η ρ ω) (b : Blk σ η π) : Except Err (State η ρ ω) :=
  match W.preimages s0.world s.world s.slot b.preimages with
  | none => .error .preimages
  | some w => .ok { s with world := w }

/-- `transition_services_last_accumulate_at`, services.rs lines 396-421. -/
def touched (W : World σ η ρ ω π) (s : State η ρ ω) (acc : List (Nat × UInt64 × UInt32)) : State η ρ ω :=
  { s with world := W.touch s.world (acc.map Prod.fst) s.slot }

/-- `run_state_transition_post_header_commitment`, lines 186-315. -/
def post (W : World σ η ρ ω π) (anc : Option (Nat → Nat → Bool)) (s0 s : State η ρ ω) (b : Blk σ η π) :
    Except Err (State η ρ ω × List Acc.Report) := do
  let (s, available, keys) ← reports W anc s0 s b
  let s := mixEntropy W s b
  let (s, accumulated, acc) ← accumulation W s0 s available
  let s := pools W s b
  let s := touched W s acc
  let s ← statistics W s0 s b available keys acc
  let s ← integrate W s0 s b
  return (s, accumulated)

/-! ## The history: executor.rs lines 402-411 -/

/-- `accumulate_root`, history.rs lines 193-208. -/
def outputRoot (W : World σ η ρ ω π) (outputs : List (Nat × Bytes)) : Bytes :=
  Merkle.balancedRoot W.keccak (outputs.map fun o => Codec.leBytes 4 o.1 ++ o.2)

/-- `append_beefy_belt_and_block_history`. -/
def fin (W : World σ η ρ ω π) (s : State η ρ ω) (b : Blk σ η π) : State η ρ ω :=
  let s := { s with belt := Merkle.mmrAppend W.keccak s.belt (outputRoot W s.outputs) }
  { s with hist := Reports.append W.P s.hist b.header (W.num (Merkle.superPeak W.keccak s.belt)) (b.guarantees.map fun g => (g.report.pkg, g.report.seg)) }

/-- The whole transition; `anc` is the ancestor set if it is consulted. -/
def block (W : World σ η ρ ω π) (anc : Option (Nat → Nat → Bool)) (s0 : State η ρ ω) (b : Blk σ η π) :
    Except Err (State η ρ ω × List Acc.Report) := do
  let s ← pre W s0 b
  let (s, accumulated) ← post W anc s0 s b
  return (fin W s b, accumulated)

/-- A chain of blocks, each with the ancestors known to the importer: the final state and what each block
accumulated. -/
def run (W : World σ η ρ ω π) : List (Option (Nat → Nat → Bool) × Blk σ η π) → State η ρ ω → Except Err (State η ρ ω × List (List Acc.Report))
  | [], s => .ok (s, [])
  | b :: bs, s =>
    match block W b.1 s b.2 with
    | .error e => .error e
    | .ok (s, acc) =>
      match run W bs s with
      | .error e => .error e
      | .ok (s, accs) => .ok (s, acc :: accs)

end Fastroll.Stf
