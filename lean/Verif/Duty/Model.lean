import Verif.Chain.Model
import Verif.Safrole.Model

/-!
# Model of the clock, the slot scheduler and the decision who authors a slot

Transcribes
* `/repo/clock/src/lib.rs` lines 14-55 (the slot of the clock, the wait for the next slot),
* `/repo/node/src/scheduler/timeslot_scheduler.rs` (the loop over slots),
* `/repo/transition/src/state_prediction/{mod,entropy,validator_sets,slot_sealers}.rs` (state predicted for a slot),
* `/repo/node/src/roles/manager.rs` lines 22-38 (`is_author_of_slot`),
* `/repo/node/src/scheduler/chain_extension.rs` lines 33-91 (`extend_chain`),
* `/repo/crypto/src/types/validator_keys.rs` lines 150-158, `/repo/node/src/jam_node/init.rs` lines 86-93 (the index of
  the node's own key),
* `/repo/node/src/jam_node/runner.rs` lines 38-45 (importer and scheduler run as separate tasks on one storage).

Simplifications.
* Times are milliseconds of the Unix clock and not before 1970; the monotonic clock of the timer advances with it.
* The Safrole part of a state of the importer model (`Chain`) is read by a function `rd`; the two models are connected
  by `Carries` (file `Spec.lean`).
* A sealer outside the epoch's series (a panic) and an error of the sealer computation are both `error`.
* The keystore is a function from public to secret keys.  The announcement to the peers is C67.
* The importer and the author interleave at the phases of the author: a block is imported before, between or after the
  two phases.
-/
namespace Fastroll.Duty
open Fastroll.Wire
open Fastroll.Safrole (Par Heap Crypto VKey nextSealers sealerAt)

/-! ## The clock -/

/-- `COMMON_ERA_TIMESTAMP`, `COMMON_ERA_TIMESTAMP_MILLIS`, `SLOT_DURATION`: `common/src/constants/mod.rs` 13-16,
`chain_spec/full.rs` 12. -/
def era : Nat := 1735732800
def eraMillis : Nat := era * 1000
def slotSecs : Nat := 6

/-- `checked_sub`. -/
def checkedSub (a b : Nat) : Option Nat := if b ≤ a then some (a - b) else none

/-- `seconds_since_common_era`: 29-35, with the time read being `t` milliseconds. -/
def secondsSince (t : Nat) : Option Nat := if t / 1000 < era then none else checkedSub (t / 1000) era

/-- `millis_since_common_era`: 37-43. -/
def millisSince (t : Nat) : Option Nat := if t < eraMillis then none else checkedSub t eraMillis

/-- `now_jam_timeslot`: 45-47.  The cast to `u32` keeps the low bits. -/
def nowSlot (t : Nat) : Option Nat := (secondsSince t).map fun s => s / slotSecs % 2 ^ 32

/-- `millis_until_next_timeslot_boundary`: 49-54.  The time is read twice, first as `t1`, then as `t2`. -/
def untilBoundary (t1 t2 : Nat) : Option Nat :=
  match millisSince t1 with
  | none => none
  | some m =>
    match nowSlot t2 with
    | none => none
    | some n =>
      match checkedSub m (n * slotSecs * 1000) with
      | none => none
      | some o => checkedSub (slotSecs * 1000) o

/-- `spawn_scheduled_tasks`, the start of the interval: 11-19.  `Instant::now()` is read at `t3`; the result is the
time of the first tick, `none` if the scheduler returns. -/
def firstTick (t1 t2 t3 : Nat) : Option Nat := (untilBoundary t1 t2).map fun w => t3 + w

/-- The loop: 21-43.  `woken` are the times at which the ticks are handled; a slot is handled unless the clock gives
none. -/
def handled (woken : List Nat) : List Nat := woken.filterMap nowSlot

/-! ## Predicted state -/

/-- `epoch_progressed`: `mod.rs` 8-10. -/
def progressed (P : Par) (was now : Nat) : Bool := decide (was / P.epoch < now / P.epoch)

section
variable {κ ρ η : Type} [DecidableEq κ]
abbrev SafState (κ ρ η : Type) := Safrole.State κ ρ η

/-- `predict_active_set`: `validator_sets.rs` 10-23. -/
def predictActive (P : Par) (s : SafState κ ρ η) (slot : Nat) : List (VKey κ) :=
  if progressed P s.slot slot then s.saf.pending else s.active

/-- `predict_past_set`: 25-36. -/
def predictPast (P : Par) (s : SafState κ ρ η) (slot : Nat) : List (VKey κ) :=
  if progressed P s.slot slot then s.active else s.past

/-- `predict_post_entropy_3`: `entropy.rs` 7-19. -/
def predictEta3 (P : Par) (s : SafState κ ρ η) (slot : Nat) : η :=
  if progressed P s.slot slot then s.e2 else s.e3

/-- `predict_post_slot_sealer`: `slot_sealers.rs` 20-44. -/
def predictSealer (H : Heap) (P : Par) (C : Crypto κ ρ η) (s : SafState κ ρ η) (slot : Nat) : Option (Safrole.Sealer κ) :=
  if progressed P s.slot slot then
    match nextSealers H P C s.saf s.slot slot s.saf.pending s.e1 with
    | none => none
    | some l => sealerAt P l slot
  else sealerAt P s.saf.sealers slot

/-! ## The role of a node in a slot -/

inductive Role where
  | author
  | importer
  /-- `unimplemented!()`. -/
  | panic
  | error
deriving DecidableEq, Repr

/-- `is_author_of_slot`: `manager.rs` 23-37. -/
def role (H : Heap) (P : Par) (C : Crypto κ ρ η) (s : SafState κ ρ η) (key : κ) (slot : Nat) : Role :=
  match predictSealer H P C s slot with
  | none => .error
  | some (.ticket _) => .panic
  | some (.key k) => if key = k then .author else .importer

/-- `get_validator_index`: `validator_keys.rs` 150-158. -/
def indexOf (set : List (VKey κ)) (key : κ) : Option Nat := set.findIdx? fun v => decide (v.bander = key)
end

/-! ## Extending the chain -/

open Fastroll.Chain (World Node authorHeader authorState importStep)

/-- What the task of one slot does. -/
inductive Outcome where
  | idle
  | panicked
  | failed
  | authored (b : Block) (root : Bytes)
deriving DecidableEq

/-- The node: `JamNode` and `LocalNodeInfo`. -/
structure Local where
  key : Bytes
  /-- `curr_epoch_validator_index`. -/
  index : Option Nat
  /-- `load_author_secret_key`: `keystore/mod.rs` 20-23. -/
  keystore : Bytes → Option Bytes

/-- `init_node`: the index is that of the node's key in the active set of the genesis state, `init.rs` 86-93. -/
def start {ρ' : Type} (s : Safrole.State Bytes ρ' Bytes) (key : Bytes) (ks : Bytes → Option Bytes) : Local :=
  { key := key, index := indexOf s.active key, keystore := ks }

variable {K V ρ ρ' : Type} [DecidableEq K]

/-- `extend_chain`: `chain_extension.rs` 33-91.  `slot` is the slot of the tick, `clock` what the clock gives when the
header is prepared (`prelude`, `author.rs` 253-256). -/
def extend (H : Heap) (P : Par) (C : Crypto Bytes ρ' Bytes) (W : World K V ρ) (rd : Chain.St K V → Safrole.State Bytes ρ' Bytes)
    (me : Local) (slot : Nat) (clock : Option Nat) (n : Node K V ρ) : Node K V ρ × Outcome :=
  match role H P C (rd n.db) me.key slot with
  | .error => (n, .failed)
  | .panic => (n, .panicked)
  | .importer => (n, .idle)
  | .author =>
    match me.index, me.keystore me.key, clock with
    | some i, some sk, some now =>
      match Chain.authorBlock W sk i now n with
      | (n, none) => (n, .failed)
      | (n, some (b, r)) => (n, .authored b r)
    | _, _, _ => (n, .failed)

/-- A block is imported between the two phases of the author: after `commit_header` and the announcement
(`chain_extension.rs` 52-74) and before `author_block_commit_state`. -/
def interrupted (W : World K V ρ) (sk : Bytes) (i slot : Nat) (n : Node K V ρ) (time : Nat) (b : Block) :
    Node K V ρ × Option (Header × Option Bytes) :=
  match authorHeader W sk i slot n with
  | (n, none) => (n, none)
  | (n, some h) =>
    let n := (importStep W (some time) n b).1
    ((authorState W n h).1, some (h, (authorState W n h).2))

end Fastroll.Duty
