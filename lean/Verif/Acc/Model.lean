/-!
# Accumulation: scheduling of reports, gas admission, queue and history

Source: pvm/pvm-invocation/src/accumulate/{utils,pipeline}.rs, transition/src/state/{accumulate,services}.rs,
state/src/types/accumulate.rs, node/src/roles/executor.rs.

Simplifications, all of them in this file:
* Hashes and service ids are natural numbers; a report keeps the fields the scheduler reads.
* A `BTreeSet` of hashes is a list; only membership and emptiness are used here.
* Execution of a service (`AccumulateInvocation::accumulate` with the merge into the partial state) is a
  parameter; everything around it is transcribed.
-/
namespace Fastroll.Acc

/-- `WorkDigest`, the fields read by the pipeline. -/
structure Digest where
  svc : Nat
  gas : Nat
deriving DecidableEq, Repr

/-- `WorkReport`, the fields read by the scheduler: package hash, prerequisites, keys of the segment
root lookup, digests. -/
structure Report where
  pkg : Nat
  prereqs : List Nat
  lookup : List Nat
  digests : List Digest
deriving DecidableEq, Repr

/-- `WorkReportDepsMap`, state/src/types/accumulate.rs line 15. -/
abbrev Entry := Report × List Nat

/-- `work_report_deps`, utils.rs lines 19-24. -/
def workReportDeps (r : Report) : Entry := (r, r.prereqs ++ r.lookup)

/-- `edit_queue`, utils.rs lines 33-51. -/
def editQueue (q : List Entry) (acc : List Nat) : List Entry :=
  (q.filter fun e => !acc.contains e.1.pkg).map fun e => (e.1, e.2.filter fun h => !acc.contains h)

/-- `reports_to_package_hashes`, utils.rs lines 81-86. -/
def packageHashes (rs : List Report) : List Nat := rs.map (·.pkg)

/-- The loop of `extract_accumulatables`, utils.rs lines 61-75, cut off after `fuel` rounds. -/
def extractLoop : Nat → List Entry → List Report → List Report
  | 0, _, acc => acc
  | fuel + 1, q, acc =>
    let ready := q.filter fun e => e.2.isEmpty
    let waiting := q.filter fun e => !e.2.isEmpty
    if ready.isEmpty then acc
    else
      let resolved := ready.map (·.1)
      extractLoop fuel (editQueue waiting (packageHashes resolved)) (acc ++ resolved)

/-- `extract_accumulatables`, utils.rs lines 57-76. Each round but the last removes an entry, so one
more round than there are entries is as good as no bound (`Props.C16_least`). -/
def extractAccumulatables (q : List Entry) : List Report := extractLoop (q.length + 1) q []

/-- `partition_reports_by_deps`, utils.rs lines 92-98. -/
def partitionByDeps (rs : List Report) : List Report × List Report :=
  (rs.filter fun r => r.prereqs.isEmpty && r.lookup.isEmpty, rs.filter fun r => !(r.prereqs.isEmpty && r.lookup.isEmpty))

/-- `extract_queued_reports`, utils.rs lines 103-115. -/
def extractQueued (rs : List Report) (hist : List Nat) : List Entry := editQueue (rs.map workReportDeps) hist

/-- `rotate_left`, as used for queue and history. -/
def rotl {α : Type} (n : Nat) (xs : List α) : List α := xs.drop n ++ xs.take n

/-- `partition_by_slot_phase_and_flatten`, types/accumulate.rs lines 88-100; the epoch length is the
length of the queue. -/
def flattenQueue (queue : List (List Entry)) (slot : Nat) : List Entry :=
  (rotl (slot % queue.length) queue).flatten

/-- `AccumulateHistory::union`, types/accumulate.rs lines 136-138. -/
def historyUnion (history : List (List Nat)) : List Nat := history.flatten

/-- `collect_accumulatable_reports`, utils.rs lines 121-148. -/
def collect (available : List Report) (queue : List (List Entry)) (history : List (List Nat)) (slot : Nat) :
    List Report × List Entry :=
  let accumulatables := (partitionByDeps available).1
  let withDeps := (partitionByDeps available).2
  let q := flattenQueue queue slot
  let newQueued := extractQueued withDeps (historyUnion history)
  let resolved := extractAccumulatables (editQueue (q ++ newQueued) (packageHashes accumulatables))
  (accumulatables ++ resolved, newQueued)

/-- `AccumulateHistory::add`, types/accumulate.rs lines 140-143. -/
def historyAdd (history : List (List Nat)) (entry : List Nat) : List (List Nat) :=
  (rotl 1 history).set (history.length - 1) entry

/-- `get_circular` index, types/accumulate.rs lines 59-68: `rem_euclid`. -/
def circ (E : Nat) (i : Int) : Nat := (i % (E : Int)).toNat

/-- The first loop of `transition_accumulate_queue`, transition/src/state/accumulate.rs lines 37-39:
`cnt` iterations from `i`. -/
def clearLoop (phase : Nat) : (cnt i : Nat) → List (List Entry) → List (List Entry)
  | 0, _, q => q
  | cnt + 1, i, q => clearLoop phase cnt (i + 1) (q.set (circ q.length ((phase : Int) - i)) [])

/-- The second loop, lines 42-49. -/
def editLoop (phase : Nat) (last : List Nat) : (cnt i : Nat) → List (List Entry) → List (List Entry)
  | 0, _, q => q
  | cnt + 1, i, q =>
    let idx := circ q.length ((phase : Int) - i)
    editLoop phase last cnt (i + 1) (q.set idx (editQueue (q.getD idx []) last))

/-- `transition_accumulate_queue`, transition/src/state/accumulate.rs lines 13-58, for `prior ≤ curr` (the
header check guarantees it; the subtraction is `u32`). -/
def queueTransition (queue : List (List Entry)) (queued : List Entry) (last : List Nat) (prior curr : Nat) :
    List (List Entry) :=
  let E := queue.length
  let phase := curr % E
  let skipped := min (curr - prior) E
  let q1 := clearLoop phase (skipped - 1) 1 queue
  let q2 := editLoop phase last (E - skipped) skipped q1
  q2.set (circ E (phase : Int)) (editQueue queued last)

/-- The accumulation state of the chain. -/
structure St where
  slot : Nat
  queue : List (List Entry)
  history : List (List Nat)
deriving DecidableEq, Repr

/-- The accumulation part of a block, executor.rs lines 230-251: schedule, accumulate the first `n`
scheduled reports (`n` is what `accumulate_outer` reports), record them in the history, update the
queue with the newest history entry. `none` is `InvalidAccumulateCount`. Also returns the reports
accumulated. -/
def blockStep (s : St) (available : List Report) (slot n : Nat) : Option (St × List Report) :=
  let c := collect available s.queue s.history slot
  if n > c.1.length then none
  else
    let done := c.1.take n
    let history := historyAdd s.history (packageHashes done)
    let queue := queueTransition s.queue c.2 (packageHashes done) s.slot slot
    some ({ slot := slot, queue := queue, history := history }, done)

/-! ## Gas -/

def U64 : Nat := 2 ^ 64

/-- `u64::checked_add`. -/
def checkedAdd (a b : Nat) : Option Nat := if a + b < U64 then some (a + b) else none

/-- `try_fold` of `checked_add`. -/
def checkedSum : Nat → List Nat → Option Nat
  | acc, [] => some acc
  | acc, x :: xs => match checkedAdd acc x with
    | none => none
    | some a => checkedSum a xs

/-- The loop of `max_processable_reports`, pipeline.rs lines 41-68. -/
def maxLoop (limit : Nat) : List Report → (counter n : Nat) → Nat
  | [], _, n => n
  | r :: rs, counter, n =>
    match checkedSum 0 (r.digests.map (·.gas)) with
    | none => n
    | some g =>
      match checkedAdd counter g with
      | none => n
      | some c => if c > limit then n else maxLoop limit rs c (n + 1)

def maxProcessable (rs : List Report) (limit : Nat) : Nat := maxLoop limit rs 0 0

/-- `DeferredTransfer`, invoke_args.rs. -/
structure Transfer where
  src : Nat
  dst : Nat
  amount : Nat
  gas : Nat
deriving DecidableEq, Repr

/-- Insertion into a `BTreeSet`. -/
def setInsert (x : Nat) : List Nat → List Nat
  | [] => [x]
  | y :: ys => if x < y then x :: y :: ys else if x = y then y :: ys else y :: setInsert x ys

def toSet (xs : List Nat) : List Nat := xs.foldr setInsert []

/-- A map from service ids to gas, `BTreeMap<ServiceId, UnsignedGas>`. -/
def mapGet (m : List (Nat × Nat)) (k : Nat) : Nat := ((m.find? fun p => p.1 == k).map (·.2)).getD 0

/-- Gas limit of a service in `accumulate_single_service`, pipeline.rs lines 691-714. -/
def serviceGas (transfers : List Transfer) (reports : List Report) (always : List (Nat × Nat)) (svc : Nat) : Option Nat :=
  match checkedSum 0 (((reports.flatMap (·.digests)).filter fun d => d.svc == svc).map (·.gas)) with
  | none => none
  | some g1 =>
    match checkedAdd (mapGet always svc) g1 with
    | none => none
    | some g2 =>
      match checkedSum 0 ((transfers.filter fun t => t.dst == svc).map (·.gas)) with
      | none => none
      | some g3 => checkedAdd g2 g3

/-- What one service's accumulation returns to the pipeline: gas used and deferred transfers. -/
structure SvcResult where
  used : Nat
  transfers : List Transfer
deriving DecidableEq, Repr

/-- Running a service with a gas limit: `none` if the account does not exist. `σ` is the partial state. -/
abbrev Exec (σ : Type) := σ → (svc gas : Nat) → (transfers : List Transfer) → (reports : List Report) → Option SvcResult

/-- The loop over the services in `accumulate_parallel`, pipeline.rs lines 503-583: every service sees
the same partial state `s`; only metered services contribute gas and transfers. `none` is
`GasOverflow`. -/
def parallelLoop {σ : Type} (exec : Exec σ) (s : σ) (transfers : List Transfer) (reports : List Report)
    (always : List (Nat × Nat)) (metered : List Nat) : List Nat → List (Nat × Nat) → List Transfer →
      Option (List (Nat × Nat) × List Transfer)
  | [], gas, new => some (gas, new)
  | svc :: rest, gas, new =>
    match serviceGas transfers reports always svc with
    | none => none
    | some limit =>
      match exec s svc limit (transfers.filter fun t => t.dst == svc) reports with
      | none => parallelLoop exec s transfers reports always metered rest gas new
      | some r =>
        if metered.contains svc then
          parallelLoop exec s transfers reports always metered rest (gas ++ [(svc, r.used)]) (new ++ r.transfers)
        else parallelLoop exec s transfers reports always metered rest gas new

/-- `accumulate_parallel`, pipeline.rs lines 430-643; `priv` are the privileged services. -/
def accumulateParallel {σ : Type} (exec : Exec σ) (s : σ) (priv : List Nat) (transfers : List Transfer)
    (reports : List Report) (always : List (Nat × Nat)) : Option (List (Nat × Nat) × List Transfer) :=
  let metered := toSet ((reports.flatMap (·.digests)).map (·.svc) ++ transfers.map (·.dst) ++ always.map (·.1))
  parallelLoop exec s transfers reports always metered (toSet (metered ++ priv)) [] []

/-- State of the loop of `accumulate_outer`. `always = none` once taken. -/
structure Outer (σ : Type) where
  s : σ
  idx : Nat
  remaining : Nat
  transfers : List Transfer
  always : Option (List (Nat × Nat))
  gasPairs : List (Nat × Nat)
deriving DecidableEq, Repr

inductive Step (α : Type) where
  | continue (a : α) | done (a : α) | overflow
deriving DecidableEq, Repr

/-- One round of `accumulate_outer`, pipeline.rs lines 90-157. `next` is the merged partial state after
the round and `priv` the privileged services of a partial state. -/
def outerIter {σ : Type} (exec : Exec σ) (next : σ → List Transfer → List Report → σ) (priv : σ → List Nat)
    (reports : List Report) (o : Outer σ) : Step (Outer σ) :=
  let hasReports := decide (o.idx < reports.length)
  let hasTransfers := !o.transfers.isEmpty
  if !hasReports && !hasTransfers && o.always.isNone then .done o
  else
    let always := o.always.getD []
    let o := { o with always := none }
    let n := if hasReports then maxProcessable (reports.drop o.idx) o.remaining else 0
    if n = 0 && !hasTransfers && always.isEmpty then .done o
    else
      let todo := if n > 0 then (reports.drop o.idx).take n else []
      match accumulateParallel exec o.s (priv o.s) o.transfers todo always with
      | none => .overflow
      | some (gas, new) =>
        match checkedSum 0 (gas.map (·.2)), checkedSum 0 (o.transfers.map (·.gas)) with
        | some used, some tgas =>
          match checkedAdd o.remaining tgas with
          | none => .overflow
          | some r =>
            if used > r then .overflow
            else .continue { s := next o.s o.transfers todo, idx := o.idx + n, remaining := r - used,
                             transfers := new, always := none, gasPairs := o.gasPairs ++ gas }
        | _, _ => .overflow

/-- `accumulate_outer`, pipeline.rs lines 72-169, cut off after `fuel` rounds. -/
def outerLoop {σ : Type} (exec : Exec σ) (next : σ → List Transfer → List Report → σ) (priv : σ → List Nat)
    (reports : List Report) : Nat → Outer σ → Step (Outer σ)
  | 0, o => .continue o
  | fuel + 1, o =>
    match outerIter exec next priv reports o with
    | .continue o' => outerLoop exec next priv reports fuel o'
    | r => r

def outerInit {σ : Type} (s : σ) (limit : Nat) (always : List (Nat × Nat)) : Outer σ :=
  { s, idx := 0, remaining := limit, transfers := [], always := some always, gasPairs := [] }

/-- Gas limit of a block, transition/src/state/services.rs lines 112-115; `u64` addition wraps in release
builds. -/
def blockGas (total perCore cores : Nat) (always : List (Nat × Nat)) : Nat :=
  max total ((perCore * cores + (always.map (·.2)).sum) % U64)

end Fastroll.Acc
