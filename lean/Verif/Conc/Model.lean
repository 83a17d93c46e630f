import Verif.StateCache.Model

/-
Model of concurrent access to the state cache: the block executor runs several state
transition functions as `tokio` tasks that share one `StateManager`
(`node/src/roles/executor.rs` 74-315), and the accessors of `state/src/manager.rs` are not
atomic.  A task is a tree of accessor calls, an accessor call is a sequence of atomic steps,
and a run of several tasks is any interleaving of their atomic steps.

Simplifications.
* One call of `Cache::get`, of `Cache::insert`, of the database or of the mutex around the
  dirty keys is one atomic step.  What a task computes between such calls is pure.
* As in `Verif.StateCache.Model` the trie and the state database are one map `db` from keys to
  decoded values, which does not change while a block is executed, and reading it succeeds.
* An entry of the test-only `Raw` variant (still produced by the fuzzing target, which loads the
  state with `add_raw_state_entry`, fuzz/src/fuzz_target.rs 595) holds the encoding of its value;
  the flag `raw` marks it and the value is stored decoded.
* Every task asks for the component type that belongs to the key, so `UnexpectedEntryType` only
  arises from raw entries.
-/
namespace Fastroll.Conc

open Fastroll.StateCache (Mut Status upd addKey)

/-- `CacheEntry`, state/src/cache.rs 26-34; `raw` says that the variant is `StateEntryType::Raw`. -/
structure Entry (V : Type) where
  raw : Bool
  snapshot : V
  value : V
  status : Status
  deriving DecidableEq, Repr

/-- `CacheEntry::new` on a typed value, state/src/cache.rs 36-44. -/
def fresh {V : Type} (v : V) : Entry V := ⟨false, v, v, .clean⟩

/-- What the tasks share: the databases and `StateCache` (state/src/cache.rs 64-70). -/
structure Sh (K V : Type) where
  db : K → Option V
  cache : K → Option (Entry V)
  dirty : List K

/-- The errors of the accessors: `WrongStateMutType`, `StateKeyNotInitialized`,
`StateEntryAlreadyExists`, `CacheEntryNotFound`, `UnexpectedEntryType` and whatever the closure
returns. -/
inductive Err
  | wrongMut | notInitialized | exists | entryNotFound | unexpectedType | closure
  deriving DecidableEq, Repr

/-- A task: the accessors it calls, each with what it does with the answer.
`getClean`: `get_*_clean`; `get`: `get_*`; `withMut`: `with_mut_*`, the closure may fail;
`add`: `add_*`. -/
inductive Task (K V R : Type)
  | done (r : R)
  | getClean (k : K) (next : Option V → Task K V R)
  | get (k : K) (next : Option V → Task K V R)
  | withMut (k : K) (m : Mut) (f : V → Option V) (next : Except Err Unit → Task K V R)
  | add (k : K) (v : V) (next : Except Err Unit → Task K V R)

/-- The accessor in which a task is suspended while it looks an entry up. -/
inductive Wait (K V R : Type)
  | clean (next : Option V → Task K V R)
  | plain (next : Option V → Task K V R)
  | alter (m : Mut) (f : V → Option V) (next : Except Err Unit → Task K V R)
  | add (v : V) (next : Except Err Unit → Task K V R)

/-- Where a task is. -/
inductive Pc (K V R : Type)
  /-- between two accessor calls -/
  | ready (t : Task K V R)
  /-- the cache did not have the entry; the database is asked next -/
  | fetch (k : K) (w : Wait K V R)
  /-- `insert_clean_cache_entry_and_snapshot` is next -/
  | insert (k : K) (v : V) (w : Wait K V R)
  /-- `with_mut_entry` is next -/
  | lock (k : K) (m : Mut) (f : V → Option V) (next : Except Err Unit → Task K V R)
  /-- the key is put into the set of dirty keys next, and then the entry into the cache -/
  | mark (k : K) (e : Entry V) (next : Except Err Unit → Task K V R)
  /-- the entry is put into the cache next -/
  | put (k : K) (e : Entry V) (next : Except Err Unit → Task K V R)

section
variable {K V R : Type} [DecidableEq K]

/-- How an accessor goes on when the look-up is over: the getters return
(state/src/manager.rs 894-952), `with_mut_state_entry_internal` fails or goes on to
`with_mut_entry` (969-981), `add_state_entry_internal` fails or inserts a dirty entry
(993-1018). -/
def resume (k : K) (w : Wait K V R) (r : Option V) : Pc K V R :=
  match w, r with
  | .clean n, r => .ready (n r)
  | .plain n, r => .ready (n r)
  | .alter _ _ n, none => .ready (n (.error .notInitialized))
  | .alter m f n, some _ => .lock k m f n
  | .add _ n, some _ => .ready (n (.error .exists))
  | .add v n, none => .mark k ⟨false, v, v, .dirty .add⟩ n

/-- The cache look-up of `get_state_entry_internal`, state/src/manager.rs 924-944. -/
def lookup (s : Sh K V) (k : K) (w : Wait K V R) : Pc K V R :=
  match s.cache k with
  | none => .fetch k w
  | some e =>
    if e.status = .dirty .remove then resume k w none
    else if e.raw then .insert k e.value w
    else resume k w (some e.value)

/-- The cache look-up of `get_clean_state_entry_internal`, state/src/manager.rs 612-622, 902-904:
a raw entry does not convert to the component type and counts as a miss. -/
def lookupClean (s : Sh K V) (k : K) (n : Option V → Task K V R) : Pc K V R :=
  match s.cache k with
  | none => .fetch k (.clean n)
  | some e => if e.raw then .fetch k (.clean n) else .ready (n (some e.snapshot))

/-- `StateCache::with_mut_entry` up to its first write, state/src/cache.rs 141-158: the entry is
cloned and changed outside the cache. -/
def change (s : Sh K V) (k : K) (m : Mut) (f : V → Option V)
    (n : Except Err Unit → Task K V R) : Pc K V R :=
  match s.cache k with
  | none => .ready (n (.error .entryNotFound))
  | some e =>
    if e.raw then .ready (n (.error .unexpectedType))
    else match f e.value with
      | none => .ready (n (.error .closure))
      | some v =>
        if e.status ≠ .dirty .add ∨ m ≠ .update then
          .mark k ⟨e.raw, e.snapshot, v, .dirty m⟩ n
        else .put k ⟨e.raw, e.snapshot, v, e.status⟩ n

/-- One atomic step of a task.
* `with_mut_state_entry_internal` refuses `Add`, state/src/manager.rs 965-968;
* the database is read in `get_state_entry_internal` and `get_clean_state_entry_internal`,
  906-908 and 943-945, and the value inserted as a clean entry, 910-913 and 947-950;
* `mark` and `put` are the two writes of `insert_entry` (state/src/cache.rs 117-122) and of
  `with_mut_entry` (158-162). -/
def step (s : Sh K V) : Pc K V R → Sh K V × Pc K V R
  | .ready (.done r) => (s, .ready (.done r))
  | .ready (.getClean k n) => (s, lookupClean s k n)
  | .ready (.get k n) => (s, lookup s k (.plain n))
  | .ready (.withMut k m f n) =>
    if m = .add then (s, .ready (n (.error .wrongMut))) else (s, lookup s k (.alter m f n))
  | .ready (.add k v n) => (s, lookup s k (.add v n))
  | .fetch k w =>
    match s.db k with
    | none => (s, resume k w none)
    | some v => (s, .insert k v w)
  | .insert k v w => (⟨s.db, upd s.cache k (some (fresh v)), s.dirty⟩, resume k w (some v))
  | .lock k m f n => (s, change s k m f n)
  | .mark k e n => (⟨s.db, s.cache, addKey s.dirty k⟩, .put k e n)
  | .put k e n => (⟨s.db, upd s.cache k (some e), s.dirty⟩, .ready (n (.ok ())))

/-- Several tasks and what they share. -/
structure Sys (I K V R : Type) where
  sh : Sh K V
  pc : I → Pc K V R

variable {I : Type} [DecidableEq I]

/-- One step of task `i`. -/
def Sys.step (y : Sys I K V R) (i : I) : Sys I K V R :=
  ⟨(Conc.step y.sh (y.pc i)).1, upd y.pc i (Conc.step y.sh (y.pc i)).2⟩

/-- A run: the scheduler picks a task for every step. -/
def Sys.run (y : Sys I K V R) (sched : List I) : Sys I K V R := sched.foldl Sys.step y

/-- The tasks as they are spawned (`spawn_timed`, node/src/utils.rs 4-15). -/
def Sys.spawn (s : Sh K V) (t : I → Task K V R) : Sys I K V R := ⟨s, fun i => .ready (t i)⟩

/-- What a finished task returned. -/
def Pc.result : Pc K V R → Option R
  | .ready (.done r) => some r
  | _ => none

/-- All tasks have finished: what the joins at the end of a phase wait for
(node/src/roles/executor.rs 138-150, 299-306). -/
def Sys.joined (y : Sys I K V R) : Prop := ∀ i, (y.pc i).result.isSome

/-- The entry of a clean key may be dropped from the cache at any time
(state/src/cache.rs 73-83). -/
def evict (s : Sh K V) (k : K) : Sh K V :=
  match s.cache k with
  | none => s
  | some e => if e.status = .clean then ⟨s.db, upd s.cache k none, s.dirty⟩ else s

end

end Fastroll.Conc
