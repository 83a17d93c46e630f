import Verif.Conc.Model

/-
The state transition functions that the block executor runs concurrently, written as the
sequences of accessor calls they make (`node/src/roles/executor.rs` 74-315).

Simplifications.
* What a transition function computes from the components it has read is a parameter; only which
  components it reads and writes, in which order and on which conditions, is spelled out.  The one
  exception is the entropy, where the tasks of a group touch the same component.
* The ring cache, the record of the last staging set and the header database, which the tasks
  reach without the state cache, are left out: of the tasks of a group only one uses each of them.
  The new hash of the staging set is an output of the disputes task.
* State keys are named by what they stand for; that different names give different keys is the
  subject of C34.
-/
namespace Fastroll.Conc

open Fastroll.StateCache (Mut)

/-- The state keys the concurrent tasks use (state/src/state_utils.rs). -/
inductive Key
  | timeslot | entropy | disputes | active | past | staging | safrole | history | pending
  | authPool | authQueue | stats | accQueue | accHistory
  | metadata (s : Nat)
  | preimage (s : Nat) (h : List UInt8)
  | lookups (s : Nat) (h : List UInt8) (len : Nat)
  deriving DecidableEq, Repr

/-- A component: the four hashes of `EpochEntropy` or any other. -/
inductive Val (H X : Type)
  | entropy (e0 e1 e2 e3 : H)
  | other (x : X)
  deriving DecidableEq, Repr

/-- `TransitionError`: an error of the state manager, an invalid extrinsic, or another. -/
inductive TErr
  | state (e : Err) | xt | other
  deriving DecidableEq, Repr

/-- What a transition function returns. -/
abbrev Out (V : Type) := Except TErr (List V)

/-- A task of the executor. -/
abbrev Stf (V : Type) := Task Key V (Out V)

section
variable {V : Type}

/-- Return with an error. -/
def fail (e : TErr) : Stf V := .done (.error e)

/-- `get_simple_state_entry(..).await?`, state/src/manager.rs 1033-1041. -/
def getS (k : Key) (n : V → Stf V) : Stf V :=
  .get k fun r => match r with
    | none => fail (.state .notInitialized)
    | some v => n v

/-- `get_clean_simple_state_entry(..).await?`, state/src/manager.rs 1021-1031. -/
def getCleanS (k : Key) (n : V → Stf V) : Stf V :=
  .getClean k fun r => match r with
    | none => fail (.state .notInitialized)
    | some v => n v

/-- `with_mut_*(StateMut::Update, f).await?`, state/src/manager.rs 1043-1059. -/
def mutS (k : Key) (f : V → Option V) (n : Stf V) : Stf V :=
  .withMut k .update f fun r => match r with
    | .error e => fail (.state e)
    | .ok _ => n

/-- `if !ok { return Err(..) }`. -/
def check (ok : Bool) (n : Stf V) : Stf V := if ok then n else fail .xt

/-- A `for` loop. -/
def each {A : Type} (l : List A) (body : A → Stf V → Stf V) (n : Stf V) : Stf V :=
  match l with
  | [] => n
  | a :: l => body a (each l body n)

/-- A `for` loop that collects a value per item. -/
def collect {A : Type} (l : List A) (body : A → (V → Stf V) → Stf V) (acc : List V)
    (n : List V → Stf V) : Stf V :=
  match l with
  | [] => n acc
  | a :: l => body a fun v => collect l body (acc ++ [v]) n

/-- What the disputes extrinsic determines. -/
structure DisputesIn (V : Type) where
  empty : Bool
  sorted : Bool
  /-- the verdicts, against the disputes, the active and the past set -/
  verdictsOk : V → V → V → Bool
  noOffences : Bool
  offencesOk : V → V → V → Bool
  merge : V → V
  /-- `compute_effective_staging_set_hash` -/
  stagingHash : V → V → Option V

/-- `DisputesXtValidator::validate`, extrinsics/src/validation/disputes.rs 51-152. -/
def validateDisputes (p : DisputesIn V) (n : Stf V) : Stf V :=
  if p.empty then n
  else check p.sorted <|
    getCleanS .disputes fun d =>
    getCleanS .active fun a =>
    getCleanS .past fun q =>
    check (p.verdictsOk d a q) <|
    if p.noOffences then n
    else getCleanS .disputes fun d' => check (p.offencesOk d' a q) n

/-- `transition_disputes`, transition/src/state/disputes.rs 15-55; a missing staging set is
ignored. -/
def disputesTask (p : DisputesIn V) : Stf V :=
  validateDisputes p <|
  mutS .disputes (fun d => some (p.merge d)) <|
  .get .staging fun r => match r with
    | none => .done (.ok [])
    | some st =>
      getS .disputes fun d => match p.stagingHash st d with
        | none => fail .other
        | some h => .done (.ok [h])

/-- `transition_past_set`, transition/src/state/validators.rs 36-53. -/
def pastTask (progressed : Bool) (ofActive : V → V) : Stf V :=
  if progressed then
    getCleanS .active fun a => mutS .past (fun _ => some (ofActive a)) (.done (.ok []))
  else .done (.ok [])

/-- `transition_active_set`, transition/src/state/validators.rs 11-29. -/
def activeTask (progressed : Bool) (ofSafrole : V → V) : Stf V :=
  if progressed then
    getCleanS .safrole fun g => mutS .active (fun _ => some (ofSafrole g)) (.done (.ok []))
  else .done (.ok [])

/-- `transition_block_history_parent_root`, transition/src/state/history.rs 22-43. -/
def historyTask (isEmpty : V → Bool) (setRoot : V → V) : Stf V :=
  getCleanS .history fun h =>
  if isEmpty h then .done (.ok [])
  else mutS .history (fun h => some (setRoot h)) (.done (.ok []))

/-- What the assurances extrinsic determines. -/
structure AssurancesIn (V A : Type) where
  /-- sorted and without duplicates, or empty -/
  shapeOk : Bool
  entries : List A
  anchorOk : A → Bool
  /-- index and signature, against the active set -/
  signatureOk : A → V → Bool
  /-- the assured cores have pending reports -/
  coresOk : A → V → Bool
  /-- the reports that have become available -/
  available : V → Option (List V)
  /-- removal of available and of timed-out reports, from the reports read and the timeslot -/
  clear : V → V → Option (V → Option V)

/-- `AssurancesXtValidator::validate`, extrinsics/src/validation/assurances.rs 43-122. -/
def validateAssurances {A : Type} (p : AssurancesIn V A) (n : Stf V) : Stf V :=
  check p.shapeOk <|
  each p.entries (fun a n =>
    check (p.anchorOk a) <|
    getCleanS .active fun s =>
    check (p.signatureOk a s) <|
    getS .pending fun r =>
    check (p.coresOk a r) n) n

/-- What one guarantee determines. -/
structure GuaranteeIn (V C : Type) where
  /-- output size and total gas -/
  limitsOk : Bool
  digests : List Nat
  gasOk : Nat → V → Bool
  /-- everything decided by pending reports (current and prior), pool, history, queue and
  accumulation history -/
  contextOk : V → V → V → V → V → V → Bool
  codeOk : Nat → V → Bool
  credentialsOk : Bool
  credentials : List C
  /-- `within_same_rotation_period`, from the timeslot -/
  sameRotation : V → Bool

/-- What the guarantees extrinsic determines.  The guarantor assignments use the entropy only
through `second_history` and `third_history`. -/
structure GuaranteesIn (H V C : Type) where
  empty : Bool
  shapeOk : Bool
  entries : List (GuaranteeIn V C)
  /-- `previous_rotation_timeslot` is in the epoch of the timeslot -/
  sameEpoch : V → Bool
  /-- the check of a credential against timeslot, shuffling entropy, validator set and disputes;
  the key of the guarantor -/
  verify : C → V → H → V → V → Option V
  record : V → V

/-- `EpochEntropy::second_history` and `third_history`. -/
def useEntropy {H X : Type} (third : Bool) (e : Val H X) (n : H → Stf (Val H X)) : Stf (Val H X) :=
  match e with
  | .entropy _ _ e2 e3 => n (if third then e3 else e2)
  | .other _ => fail (.state .unexpectedType)

/-- The key of the guarantor, if the credential is valid. -/
def verified (r : Option V) (n : V → Stf V) : Stf V :=
  match r with
  | none => fail .xt
  | some key => n key

/-- `validate_credential` with `get_guarantor_assignment`,
extrinsics/src/validation/guarantees.rs 538-609, and `current_guarantor_assignments`,
`previous_guarantor_assignments`, extrinsics/src/utils/guarantor_rotation.rs 60-117. -/
def validateCredential {H X C : Type} (p : GuaranteesIn H (Val H X) C)
    (g : GuaranteeIn (Val H X) C) (c : C) (n : Val H X → Stf (Val H X)) : Stf (Val H X) :=
  getS .timeslot fun t =>
  if g.sameRotation t then
    getS .timeslot fun t' =>
    getS .entropy fun e =>
    useEntropy false e fun h =>
    getS .active fun s =>
    getS .disputes fun d =>
    verified (p.verify c t' h s d) n
  else
    getS .timeslot fun t' =>
    getS .disputes fun d =>
    getS .entropy fun e =>
    if p.sameEpoch t' then
      useEntropy false e fun h => getS .active fun s => verified (p.verify c t' h s d) n
    else
      useEntropy true e fun h => getS .past fun s => verified (p.verify c t' h s d) n

/-- One look at the metadata of the service of each digest. -/
def digestCheck (ok : Nat → V → Bool) (svc : Nat) (n : Stf V) : Stf V :=
  .get (.metadata svc) fun r => match r with
    | none => fail .xt
    | some m => check (ok svc m) n

/-- `GuaranteesXtValidator::validate`, extrinsics/src/validation/guarantees.rs 84-160, with
`validate_work_report` 198-315, `validate_work_digests` 478-499 and `validate_credentials`
501-536. -/
def validateGuarantees {H X C : Type} (p : GuaranteesIn H (Val H X) C)
    (n : List (Val H X) → Stf (Val H X)) : Stf (Val H X) :=
  if p.empty then n []
  else check p.shapeOk <|
    getS .pending fun r =>
    getCleanS .pending fun r0 =>
    getCleanS .authPool fun pool =>
    getS .history fun hist =>
    getCleanS .accQueue fun q =>
    getCleanS .accHistory fun ah =>
    go r r0 pool hist q ah p.entries []
where
  go (r r0 pool hist q ah : Val H X) :
      List (GuaranteeIn (Val H X) C) → List (Val H X) → Stf (Val H X)
    | [], keys => n keys
    | g :: gs, keys =>
      check g.limitsOk <|
      each g.digests (digestCheck g.gasOk) <|
      check (g.contextOk r r0 pool hist q ah) <|
      each g.digests (digestCheck g.codeOk) <|
      check g.credentialsOk <|
      collect g.credentials (validateCredential p g) keys fun keys' =>
      go r r0 pool hist q ah gs keys'

/-- The reports task: `transition_reports_eliminate_invalid`, `transition_reports_clear_availables`
and `transition_reports_update_entries`, transition/src/state/reports.rs 32-176, in the order of
node/src/roles/executor.rs 205-221. -/
def reportsTask {H X A C : Type} (p : DisputesIn (Val H X)) (eliminate : Val H X → Option (Val H X))
    (a : AssurancesIn (Val H X) A) (g : GuaranteesIn H (Val H X) C) : Stf (Val H X) :=
  validateDisputes p <|
  mutS .pending eliminate <|
  validateAssurances a <|
  getS .pending fun r => match a.available r with
    | none => fail .other
    | some avail =>
      getS .timeslot fun t => match a.clear r t with
        | none => fail .other
        | some f =>
          mutS .pending f <|
          validateGuarantees g fun keys =>
          mutS .pending (fun r => some (g.record r)) <|
          .done (.ok (avail ++ keys))

/-- `transition_epoch_entropy_on_epoch_change`, transition/src/state/entropy.rs 13-33. -/
def rotate {H X : Type} (progressed : Bool) : Val H X → Option (Val H X)
  | .entropy e0 e1 e2 e3 => some (if progressed then .entropy e0 e0 e1 e2 else .entropy e0 e1 e2 e3)
  | .other _ => none

/-- `transition_epoch_entropy_per_block`, transition/src/state/entropy.rs 41-59. -/
def accumulateEntropy {H X : Type} (mix : H → Option H) : Val H X → Option (Val H X)
  | .entropy e0 e1 e2 e3 => (mix e0).map fun h => .entropy h e1 e2 e3
  | .other _ => none

/-- The task that rotates the entropy. -/
def entropyTask {H X : Type} (progressed : Bool) : Stf (Val H X) :=
  mutS .entropy (rotate progressed) (.done (.ok []))

/-- The accumulation of the entropy, run by the executor itself while the reports task runs
(node/src/roles/executor.rs 223-229). -/
def perBlockTask {H X : Type} (mix : H → Option H) : Stf (Val H X) :=
  mutS .entropy (accumulateEntropy mix) (.done (.ok []))

/-- `transition_auth_pool`, transition/src/state/authorizer.rs 16-61. -/
def authPoolTask (shift : V → V → V) : Stf V :=
  getS .authQueue fun q => mutS .authPool (fun p => some (shift q p)) (.done (.ok []))

/-- `transition_services_last_accumulate_at`, transition/src/state/services.rs 396-424. -/
def lastAccTask (services : List Nat) (setLast : V → V → V) : Stf V :=
  getS .timeslot fun t =>
  each services (fun svc n =>
    .get (.metadata svc) fun r => match r with
      | none => n
      | some _ => mutS (.metadata svc) (fun m => some (setLast t m)) n) (.done (.ok []))

/-- `transition_onchain_statistics`, transition/src/state/statistics.rs 17-180. -/
def statsTask (progressed : Bool) (rollover : V → V → V) (keysOk : V → Bool) (count : V → V → V)
    (perBlock : V → V) : Stf V :=
  let rest : Stf V :=
    getS .active fun a =>
    if keysOk a then
      mutS .stats (fun st => some (count a st)) <|
      mutS .stats (fun st => some (perBlock st)) (.done (.ok []))
    else fail .other
  if progressed then
    getS .stats fun st => mutS .stats (fun st' => some (rollover st st')) rest
  else rest

/-- One entry of the preimages extrinsic. -/
structure PreimageIn (V : Type) where
  service : Nat
  hash : List UInt8
  len : Nat
  entry : V

/-- `PreimagesXtValidator::validate_entry`, extrinsics/src/validation/preimages.rs 57-96. -/
def validatePreimage (unset : V → Bool) (x : PreimageIn V) (n : Stf V) : Stf V :=
  .getClean (.preimage x.service x.hash) fun r => match r with
    | some _ => fail .xt
    | none =>
      .getClean (.lookups x.service x.hash x.len) fun l => match l with
        | none => fail .xt
        | some l => check (unset l) n

/-- Whether the preimage is integrated, transition/src/state/services.rs 449-464. -/
def wanted (unset : V → Bool) (have_ : Option V) (l : Option V) : Bool :=
  have_.isNone && match l with
    | none => false
    | some l => unset l

/-- One round of the loop of `transition_services_integrate_preimages`,
transition/src/state/services.rs 444-500. -/
def integratePreimage (unset : V → Bool) (push : V → V → Option V) (t : V) (x : PreimageIn V)
    (n : Stf V) : Stf V :=
  .get (.preimage x.service x.hash) fun r =>
  .get (.lookups x.service x.hash x.len) fun l =>
  if wanted unset r l then
    .withMut (.lookups x.service x.hash x.len) .update (push t) fun q => match q with
      | .error .closure => fail .xt
      | .error e => fail (.state e)
      | .ok _ =>
        .add (.preimage x.service x.hash) x.entry fun q => match q with
          | .error e => fail (.state e)
          | .ok _ => n
  else n

/-- `transition_services_integrate_preimages`, transition/src/state/services.rs 433-503. -/
def preimagesTask (shapeOk : Bool) (unset : V → Bool) (push : V → V → Option V)
    (xs : List (PreimageIn V)) : Stf V :=
  check shapeOk <|
  each xs (validatePreimage unset) <|
  getS .timeslot fun t =>
  each xs (integratePreimage unset push t) (.done (.ok []))

end

/-- The five tasks of the first phase, node/src/roles/executor.rs 102-137. -/
inductive PreTask
  | disputes | entropy | past | active | history
  deriving DecidableEq, Repr

/-- The parameters of the first phase. -/
structure PreIn (H X : Type) where
  progressed : Bool
  disputes : DisputesIn (Val H X)
  ofActive : Val H X → Val H X
  ofSafrole : Val H X → Val H X
  isEmpty : Val H X → Bool
  setRoot : Val H X → Val H X

/-- node/src/roles/executor.rs 102-137. -/
def preTasks {H X : Type} (p : PreIn H X) : PreTask → Stf (Val H X)
  | .disputes => disputesTask p.disputes
  | .entropy => entropyTask p.progressed
  | .past => pastTask p.progressed p.ofActive
  | .active => activeTask p.progressed p.ofSafrole
  | .history => historyTask p.isEmpty p.setRoot

/-- The two tasks of the middle phase, node/src/roles/executor.rs 202-232. -/
inductive MidTask
  | reports | entropy
  deriving DecidableEq, Repr

/-- The parameters of the middle phase. -/
structure MidIn (H X A C : Type) where
  disputes : DisputesIn (Val H X)
  eliminate : Val H X → Option (Val H X)
  assurances : AssurancesIn (Val H X) A
  guarantees : GuaranteesIn H (Val H X) C
  mix : H → Option H

/-- node/src/roles/executor.rs 202-232. -/
def midTasks {H X A C : Type} (p : MidIn H X A C) : MidTask → Stf (Val H X)
  | .reports => reportsTask p.disputes p.eliminate p.assurances p.guarantees
  | .entropy => perBlockTask p.mix

/-- The four tasks of the last phase, node/src/roles/executor.rs 266-298. -/
inductive EndTask
  | authPool | lastAcc | stats | preimages
  deriving DecidableEq, Repr

/-- The parameters of the last phase. -/
structure EndIn (V : Type) where
  progressed : Bool
  shift : V → V → V
  services : List Nat
  setLast : V → V → V
  rollover : V → V → V
  keysOk : V → Bool
  count : V → V → V
  perBlock : V → V
  shapeOk : Bool
  unset : V → Bool
  push : V → V → Option V
  preimages : List (PreimageIn V)

/-- node/src/roles/executor.rs 266-298. -/
def endTasks {V : Type} (p : EndIn V) : EndTask → Stf V
  | .authPool => authPoolTask p.shift
  | .lastAcc => lastAccTask p.services p.setLast
  | .stats => statsTask p.progressed p.rollover p.keysOk p.count p.perBlock
  | .preimages => preimagesTask p.shapeOk p.unset p.push p.preimages

end Fastroll.Conc
