/-!
# Model of the ring cache

Transcribes
* `/repo/state/src/manager.rs` lines 89-126 and 285-526 (the two cached ring contexts, the context of the
  last staging set, and every operation on them),
* `/repo/transition/src/ring_cache.rs` lines 12-66 (the effective hash and the background task),
* `/repo/transition/src/state/disputes.rs` lines 40-50, `privileges.rs` lines 14-46,
  `safrole.rs` lines 57-105 (the callers), `/repo/extrinsics/src/validation/tickets.rs` lines 141-148,
* `/repo/node/src/roles/executor.rs` lines 95-165 (the order of the calls in a block),
* `/repo/node/src/roles/importer.rs` lines 117-139 (a rejected block),
  `/repo/fuzz/src/fuzz_target.rs` lines 114-140, 641-700 (snapshots of the ring cache).

Simplifications.
* Building a `RingVrfVerifier` from a set is a total function `gen`; the ring root is a function of the
  verifier and is not carried separately.  The Blake2b hash of an encoded set is a function `hash`.
* A validator key is its Ed25519 key and the rest of its octets.
* `sort_extend_punish_set` keeps the punish set sorted; only membership matters here: appended.
* The validity of blocks is not modelled: a block says at which point, if any, it is rejected.
* A background task that was scheduled may complete at any time: every block lists the tasks that complete
  between its steps.
-/
namespace Fastroll.Ring

/-- `ValidatorKey`: `state/src/types/validators.rs`. -/
structure VKey where
  ed : Nat
  rest : Nat
deriving DecidableEq

/-- `ValidatorKey::default()`. -/
def VKey.zero : VKey := ⟨0, 0⟩

/-- `nullify_punished_validators`, the new set: `state/src/types/validators.rs` 39-48. -/
def nullify : List VKey → List Nat → List VKey
  | [], _ => []
  | k :: ks, p => (if p.contains k.ed then VKey.zero else k) :: nullify ks p

/-- `nullify_punished_validators`, the result: whether any validator was punished. -/
def anyPunished (s : List VKey) (p : List Nat) : Bool := s.any fun k => p.contains k.ed

/-- What the model is parametric in. -/
structure World (V H : Type) where
  gen : List VKey → V
  hash : List VKey → H

/-- `RingContext`: 88-94. -/
structure Ctx (V : Type) where
  insertedAt : Nat
  set : List VKey
  verifier : V
deriving DecidableEq

/-- `RingCache` and `LastStagingSetTransitionContext`: 97-126. -/
structure Cache (V H : Type) where
  curr : Option (Ctx V)
  staging : Option (Ctx V)
  lastSlot : Nat
  lastHash : H
deriving DecidableEq

variable {V H : Type} [DecidableEq H]

/-- The cached entry as accepted by `get_or_generate_curr_ring_context`: 336-360.  The pattern binds the
cached entry's `validator_set` over the argument of the same name, so the hash compared is the one of the
cached set. -/
def currHit (W : World V H) (c : Cache V H) : Option V :=
  match c.curr with
  | none => none
  | some x =>
    if c.lastSlot < x.insertedAt then some x.verifier
    else if c.lastSlot = x.insertedAt ∧ c.lastHash = W.hash x.set then some x.verifier
    else none

/-- `get_or_generate_curr_ring_context`: 329-375. -/
def getCurr (W : World V H) (c : Cache V H) (slot : Nat) (set : List VKey) : Cache V H × V :=
  match currHit W c with
  | some v => (c, v)
  | none => ({ c with curr := some ⟨slot, set, W.gen set⟩ }, W.gen set)

/-- `update_staging_ring_cache_entry`: 431-440. -/
def putStaging (c : Cache V H) (x : Ctx V) : Cache V H :=
  match c.staging with
  | some e => if e.insertedAt ≥ x.insertedAt then c else { c with staging := some x }
  | none => { c with staging := some x }

/-- The cached entry as accepted by `get_or_generate_staging_ring_context`: 386-408. -/
def stagingHit (W : World V H) (c : Cache V H) : Option V :=
  match c.staging with
  | none => none
  | some x => if c.lastSlot ≤ x.insertedAt ∧ c.lastHash = W.hash x.set then some x.verifier else none

/-- `get_or_generate_staging_ring_context`: 380-425. -/
def getStaging (W : World V H) (c : Cache V H) (slot : Nat) (set : List VKey) : Cache V H × V :=
  match stagingHit W c with
  | some v => (c, v)
  | none => (putStaging c ⟨slot, set, W.gen set⟩, W.gen set)

/-- `commit_and_rotate_ring_cache`: 472-475 and 114-116. -/
def rotate (c : Cache V H) : Cache V H := { c with curr := c.staging }

/-- `nullify_offenders_from_staging_ring_cache`: 480-510. -/
def nullifyStaging (W : World V H) (c : Cache V H) (off : List Nat) : Cache V H :=
  match c.staging with
  | none => c
  | some x =>
    let s := nullify x.set off
    if anyPunished x.set off then
      { c with staging := some ⟨x.insertedAt, s, W.gen s⟩, lastHash := W.hash s }
    else { c with staging := some { x with set := s } }

/-- What a scheduled background task carries: `transition/src/ring_cache.rs` 23-29. -/
structure Task (H : Type) where
  slot : Nat
  set : List VKey
  punish : List Nat
  expected : H

/-- The end of a background task, with `update_staging_ring_cache_entry_guarded`:
`ring_cache.rs` 31-58 and `manager.rs` 443-460. -/
def finish (W : World V H) (c : Cache V H) (t : Task H) : Cache V H :=
  if c.lastSlot ≠ t.slot then c
  else if c.lastHash ≠ t.expected then c
  else
    let s := nullify t.set t.punish
    putStaging c ⟨t.slot, s, W.gen s⟩

/-- The part of the chain state the ring cache mirrors: the timeslot, the staging set, the punish set and
the pending set. -/
structure Chain where
  slot : Nat
  staging : List VKey
  punish : List Nat
  pending : List VKey
deriving DecidableEq

/-- Where a block is rejected. -/
inductive Reject
  /-- before the ring cache is touched -/
  | early
  /-- while the disputes are validated -/
  | disputes
  /-- after the tickets were checked: by a ticket, the seal, a header marker, or a later extrinsic -/
  | tickets
  /-- after accumulation -/
  | late
deriving DecidableEq

/-- A block as the ring cache sees it, with the background tasks that complete meanwhile (positions in the
list of outstanding tasks). -/
structure Block where
  slot : Nat
  /-- the offenders of the disputes extrinsic -/
  offenders : List Nat
  /-- whether the tickets extrinsic is non-empty and reaches the ring verifier -/
  tickets : Bool
  /-- the staging set designated in accumulation -/
  designate : Option (List VKey)
  reject : Option Reject
  /-- tasks completing between the nullification and the rotation -/
  t1 : List Nat
  /-- tasks completing between the rotation and the dispute transition -/
  t2 : List Nat
  /-- tasks completing between the dispute transition and the epoch transition -/
  t3 : List Nat
  /-- tasks completing between the epoch transition and the tickets -/
  t4 : List Nat
  /-- tasks completing between the tickets and accumulation -/
  t5 : List Nat

/-- The node: the cache, the outstanding tasks, the chain state, and the snapshots taken after accepted
blocks. -/
structure Node (V H : Type) where
  cache : Cache V H
  tasks : List (Task H)
  chain : Chain
  snaps : List (Cache V H × Chain)

/-- The tasks at the given positions complete, one after the other. -/
def finishAll (W : World V H) : Cache V H → List (Task H) → List Nat → Cache V H × List (Task H)
  | c, ts, [] => (c, ts)
  | c, ts, i :: is =>
    match ts[i]? with
    | none => finishAll W c ts is
    | some t => finishAll W (finish W c t) (ts.eraseIdx i) is

/-- What a block obtained from the cache: the verifier behind the new ring root, when an epoch began, and
the verifier its tickets were checked with. -/
structure Out (V : Type) where
  root : Option V
  tickets : Option V
deriving DecidableEq

/-- The state between the steps of a block. -/
structure Mid (V H : Type) where
  cache : Cache V H
  tasks : List (Task H)

def Mid.run (W : World V H) (m : Mid V H) (is : List Nat) : Mid V H :=
  ⟨(finishAll W m.cache m.tasks is).1, (finishAll W m.cache m.tasks is).2⟩

/-- Steps up to the dispute validation: `executor.rs` 95-105. -/
def beforeDisputes (W : World V H) (m : Mid V H) (epoch : Bool) (b : Block) : Mid V H :=
  let m1 : Mid V H := Mid.run W ⟨nullifyStaging W m.cache b.offenders, m.tasks⟩ b.t1
  Mid.run W ⟨if epoch then rotate m1.cache else m1.cache, m1.tasks⟩ b.t2

/-- The hash update at the end of the dispute transition: `disputes.rs` 40-46. -/
def afterDisputes (W : World V H) (m : Mid V H) (staging : List VKey) (punish : List Nat) (b : Block) :
    Mid V H :=
  Mid.run W ⟨{ m.cache with lastHash := W.hash (nullify staging punish) }, m.tasks⟩ b.t3

/-- The epoch transition: `safrole.rs` 57-105. -/
def epochStep (W : World V H) (m : Mid V H) (epoch : Bool) (set : List VKey) (b : Block) :
    Mid V H × Option V :=
  if epoch then
    let r := getStaging W m.cache b.slot set
    (Mid.run W ⟨r.1, m.tasks⟩ b.t4, some r.2)
  else (Mid.run W m b.t4, none)

/-- The ticket check: `tickets.rs` 141-148. -/
def ticketStep (W : World V H) (m : Mid V H) (pending : List VKey) (b : Block) : Mid V H × Option V :=
  if b.tickets then
    let r := getCurr W m.cache b.slot pending
    (Mid.run W ⟨r.1, m.tasks⟩ b.t5, some r.2)
  else (Mid.run W m b.t5, none)

/-- The designation in accumulation: `privileges.rs` 14-46. -/
def designateStep (W : World V H) (m : Mid V H) (punish : List Nat) (b : Block) : Mid V H :=
  match b.designate with
  | none => m
  | some s =>
    let h := W.hash (nullify s punish)
    ⟨{ m.cache with lastSlot := b.slot, lastHash := h }, m.tasks ++ [⟨b.slot, s, punish, h⟩]⟩

/-- `prev_timeslot.epoch() < curr_timeslot.epoch()`. -/
def newEpoch (E : Nat) (prev curr : Nat) : Bool := decide (prev / E < curr / E)

/-- The node after a rejected block: the state cache is rolled back (`importer.rs` 133-137); the ring cache
is put back only where `restores` holds, as in the fuzz target (`fuzz_target.rs` 694-700). -/
def rejected (n : Node V H) (restores : Bool) (m : Mid V H) : Node V H :=
  { n with cache := if restores then n.cache else m.cache, tasks := m.tasks }

/-- One block. -/
def runBlock (W : World V H) (E : Nat) (restores : Bool) (n : Node V H) (b : Block) : Node V H × Out V :=
  if b.slot ≤ n.chain.slot ∨ b.reject = some .early then (n, ⟨none, none⟩)
  else
    let epoch := newEpoch E n.chain.slot b.slot
    let m1 := beforeDisputes W ⟨n.cache, n.tasks⟩ epoch b
    if b.reject = some .disputes then (rejected n restores m1, ⟨none, none⟩)
    else
      let punish := n.chain.punish ++ b.offenders
      let eff := nullify n.chain.staging punish
      let m2 := afterDisputes W m1 n.chain.staging punish b
      let (m3, root) := epochStep W m2 epoch eff b
      let pending := if epoch then eff else n.chain.pending
      let (m4, ver) := ticketStep W m3 pending b
      if b.reject = some .tickets then (rejected n restores m4, ⟨root, ver⟩)
      else
        let m5 := designateStep W m4 punish b
        if b.reject = some .late then (rejected n restores m5, ⟨root, ver⟩)
        else
          let chain : Chain := ⟨b.slot, b.designate.getD n.chain.staging, punish, pending⟩
          (⟨m5.cache, m5.tasks, chain, n.snaps ++ [(m5.cache, chain)]⟩, ⟨root, ver⟩)

/-- What happens to a node. -/
inductive Op
  | block (b : Block)
  /-- background tasks complete between blocks -/
  | tasks (is : List Nat)
  /-- the node goes back to the state after an earlier accepted block (a fork) -/
  | fork (k : Nat)

/-- A block that was run: the chain state it was run on, the block and what it obtained. -/
structure Entry (V : Type) where
  pre : Chain
  block : Block
  out : Out V

/-- A history, with the blocks run. -/
def run (W : World V H) (E : Nat) (restores : Bool) : Node V H → List Op → Node V H × List (Entry V)
  | n, [] => (n, [])
  | n, .block b :: ops =>
    let r := runBlock W E restores n b
    let q := run W E restores r.1 ops
    (q.1, ⟨n.chain, b, r.2⟩ :: q.2)
  | n, .tasks is :: ops =>
    let r := finishAll W n.cache n.tasks is
    run W E restores { n with cache := r.1, tasks := r.2 } ops
  | n, .fork k :: ops =>
    match n.snaps[k]? with
    | none => run W E restores n ops
    | some s => run W E restores { n with cache := s.1, chain := s.2 } ops

/-- A node that starts: `RingCache::default()`, `LastStagingSetTransitionContext::default()`. -/
def start (h0 : H) (c : Chain) : Node V H := ⟨⟨none, none, 0, h0⟩, [], c, []⟩

end Fastroll.Ring
