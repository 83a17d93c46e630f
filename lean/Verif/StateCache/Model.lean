/-
Model of the state cache that sits between the state transition functions and the
databases: `state/src/cache.rs` and the entry accessors of `state/src/manager.rs`.

Simplifications.
* The Merkle trie and the state database together are one finite map `db` from state
  keys to values (that the trie stores exactly such a map is the subject of C32/C33);
  the state entry codecs are taken to round-trip, so `db` holds decoded values.
* The map `cache` of mini_moka is a partial function; an eviction is an explicit
  operation which removes an entry.  The cache is built with a weigher that gives dirty
  entries weight zero (`state/src/cache.rs` 73-83); the comment there says that such
  entries are never evicted, and `Op.evict` only drops clean entries.  What would happen
  otherwise is `evictDirty`.
* Type mismatches between a key and the requested component type
  (`UnexpectedEntryType`) and the test-only `Raw` entries are left out.
-/
namespace Fastroll.StateCache

/-- `StateMut`, state/src/cache.rs 13-18. -/
inductive Mut
  | add | update | remove
  deriving DecidableEq, Repr

/-- `CacheEntryStatus`, state/src/cache.rs 20-24. -/
inductive Status
  | clean | dirty (m : Mut)
  deriving DecidableEq, Repr

/-- `CacheEntry`, state/src/cache.rs 26-34. -/
structure Entry (V : Type) where
  snapshot : V
  value : V
  status : Status
  deriving DecidableEq, Repr

/-- `CacheEntry::new`, state/src/cache.rs 36-44. -/
def Entry.fresh {V : Type} (v : V) : Entry V := { snapshot := v, value := v, status := .clean }

/-- `CacheEntry::is_dirty`, state/src/cache.rs 46-48. -/
def Entry.isDirty {V : Type} (e : Entry V) : Bool :=
  match e.status with
  | .clean => false
  | .dirty _ => true

/-- `CacheEntry::revert_to_clean`, state/src/cache.rs 54-57. -/
def Entry.revert {V : Type} (e : Entry V) : Entry V :=
  { e with value := e.snapshot, status := .clean }

/-- `CacheEntry::mark_clean_and_snapshot`, state/src/cache.rs 59-62. -/
def Entry.settle {V : Type} (e : Entry V) : Entry V :=
  { e with status := .clean, snapshot := e.value }

/-- A staged commit: `StateCommitArtifact`, the dirty entries of a block together with the
database writes they amount to (state/src/manager.rs 772-799). -/
structure Artifact (K V : Type) where
  entries : List (K × Entry V)
  db : K → Option V

/-- The databases, the cache (`StateCache`, state/src/cache.rs 64-70) and the artifacts
staged but not applied. -/
structure St (K V : Type) where
  db : K → Option V
  cache : K → Option (Entry V)
  dirty : List K
  staged : List (Artifact K V)

/-- Errors; `panic` stands for the out-of-bounds slice in `derive_final_leaf_paths`
(state/state-merkle-v2/src/utils.rs 38-47), reached when a key is added to a trie that has it. -/
inductive Err
  | exists | notInitialized | closure | commit | panic
  deriving DecidableEq, Repr

section
variable {K V : Type} [DecidableEq K]

/-- Pointwise update of a map. -/
def upd {A : Type} (f : K → A) (k : K) (a : A) : K → A := fun k' => if k' = k then a else f k'

/-- `HashSet::insert`. -/
def addKey (l : List K) (k : K) : List K := if k ∈ l then l else k :: l

/-- `StateCache::insert_entry`, state/src/cache.rs 117-122. -/
def insertEntry (s : St K V) (k : K) (e : Entry V) : St K V :=
  { s with cache := upd s.cache k (some e), dirty := if e.isDirty then addKey s.dirty k else s.dirty }

/-- `get_state_entry_internal`, state/src/manager.rs 917-953. -/
def get (s : St K V) (k : K) : St K V × Option V :=
  match s.cache k with
  | some e => (s, if e.status = .dirty .remove then none else some e.value)
  | none =>
    match s.db k with
    | none => (s, none)
    | some v => (insertEntry s k (Entry.fresh v), some v)

/-- `get_clean_state_entry_internal` with `get_clean_cache_snapshot_as_state`,
state/src/manager.rs 612-622, 891-915: the snapshot of a cached entry whatever its status. -/
def getClean (s : St K V) (k : K) : St K V × Option V :=
  match s.cache k with
  | some e => (s, some e.snapshot)
  | none =>
    match s.db k with
    | none => (s, none)
    | some v => (insertEntry s k (Entry.fresh v), some v)

/-- `add_state_entry_internal`, state/src/manager.rs 984-1020. -/
def add (s : St K V) (k : K) (v : V) : Except Err Unit × St K V :=
  match get s k with
  | (s1, some _) => (.error .exists, s1)
  | (s1, none) => (.ok (), insertEntry s1 k { snapshot := v, value := v, status := .dirty .add })

/-- `StateCache::with_mut_entry` on an entry that is present, state/src/cache.rs 129-163. -/
def withMutEntry (s : St K V) (k : K) (e : Entry V) (m : Mut) (f : V → Option V) :
    Except Err Unit × St K V :=
  match f e.value with
  | none => (.error .closure, s)
  | some v =>
    if e.status ≠ .dirty .add ∨ m ≠ .update then
      (.ok (), { s with cache := upd s.cache k (some { e with value := v, status := .dirty m }), dirty := addKey s.dirty k })
    else
      (.ok (), { s with cache := upd s.cache k (some { e with value := v }) })

/-- `with_mut_state_entry_internal`, state/src/manager.rs 955-982; `m` is `update` or `remove`
(`Add` is refused with `WrongStateMutType`). -/
def withMut (s : St K V) (k : K) (m : Mut) (f : V → Option V) : Except Err Unit × St K V :=
  match get s k with
  | (s1, none) => (.error .notInitialized, s1)
  | (s1, some _) =>
    match s1.cache k with
    | none => (.error .notInitialized, s1)
    | some e => withMutEntry s1 k e m f

/-- `StateCache::collect_dirty`, state/src/cache.rs 179-185. -/
def collectDirty (s : St K V) : List (K × Entry V) :=
  s.dirty.filterMap fun k => (s.cache k).map fun e => (k, e)

/-- What committing one dirty entry does to the stored map:
`insert_dirty_cache_entry_as_leaf_writes`, state/src/merkle_interface/manager.rs 210-506.
Adding a key that is stored panics, updating or removing a key that is not stored is
`MerklePathUnknownForStateKey`; a clean entry is skipped. -/
def writeEntry (db : K → Option V) (k : K) (e : Entry V) : Except Err (K → Option V) :=
  match e.status with
  | .clean => .ok db
  | .dirty .add => match db k with
    | none => .ok (upd db k (some e.value))
    | some _ => .error .panic
  | .dirty .update => match db k with
    | none => .error .commit
    | some _ => .ok (upd db k (some e.value))
  | .dirty .remove => match db k with
    | none => .error .commit
    | some _ => .ok (upd db k none)

/-- All dirty entries, in the order of the hash set. -/
def writeAll (db : K → Option V) : List (K × Entry V) → Except Err (K → Option V)
  | [] => .ok db
  | (k, e) :: es =>
    match writeEntry db k e with
    | .error x => .error x
    | .ok db' => writeAll db' es

/-- What `apply_direct_commit` (state/src/cache.rs 190-203) leaves at the key of a committed
entry with status `st`. -/
def settled (st : Status) (c : Option (Entry V)) : Option (Entry V) :=
  if st = .dirty .remove then none else c.map Entry.settle

/-- One step of `apply_direct_commit`, state/src/cache.rs 190-203. -/
def directStep (c : K → Option (Entry V)) (p : K × Entry V) : K → Option (Entry V) :=
  upd c p.1 (settled p.2.status (c p.1))

/-- What `apply_deferred_commit` (state/src/cache.rs 209-230) leaves at the key of a staged entry. -/
def installed (e : Entry V) : Option (Entry V) :=
  match e.status with
  | .dirty .remove => none
  | .dirty .add => some e.settle
  | .dirty .update => some e.settle
  | .clean => some e

/-- One step of `apply_deferred_commit`, state/src/cache.rs 209-230. -/
def deferredStep (c : K → Option (Entry V)) (p : K × Entry V) : K → Option (Entry V) :=
  upd c p.1 (installed p.2)

/-- What `rollback_dirty_cache` (state/src/cache.rs 235-263) leaves of an entry. -/
def rolledBack (e : Entry V) : Option (Entry V) :=
  match e.status with
  | .clean => some e
  | .dirty .add => none
  | .dirty .update => some e.revert
  | .dirty .remove => some e.revert

/-- One step of `rollback_dirty_cache`, state/src/cache.rs 235-263; a missing entry is only
logged. -/
def rollbackStep (c : K → Option (Entry V)) (k : K) : K → Option (Entry V) :=
  upd c k ((c k).bind rolledBack)

/-- `rollback_dirty_cache`, state/src/cache.rs 235-263. -/
def rollback (s : St K V) : St K V :=
  { s with cache := s.dirty.foldl rollbackStep s.cache, dirty := [] }

/-- `commit_dirty_cache`, state/src/manager.rs 841-869.  `io` says whether the database
accepted the writes; if it did not the error is returned before the cache is touched. -/
def commit (s : St K V) (io : Bool) : Except Err Unit × St K V :=
  match collectDirty s with
  | [] => (.ok (), s)
  | p :: ps =>
    match writeAll s.db (p :: ps) with
    | .error x => (.error x, s)
    | .ok db' =>
      if io then (.ok (), { s with db := db', cache := (p :: ps).foldl directStep s.cache, dirty := [] })
      else (.error .commit, s)

/-- `prepare_dirty_cache_commit`, state/src/manager.rs 772-799: the artifact is kept and the
cache rolled back. -/
def stage (s : St K V) : Except Err Unit × St K V :=
  match collectDirty s with
  | [] => (.ok (), s)
  | p :: ps =>
    match writeAll s.db (p :: ps) with
    | .error x => (.error x, s)
    | .ok db' => (.ok (), { rollback s with staged := ⟨p :: ps, db'⟩ :: s.staged })

/-- `apply_dirty_cache_commit`, state/src/manager.rs 803-835, on a staged artifact; the
other staged artifacts (siblings of the finalised block) are dropped
(`finalize_if_parent_staged`, fuzz/src/fuzz_target.rs 389-408). -/
def finalize (s : St K V) (i : Nat) : Except Err Unit × St K V :=
  match s.staged[i]? with
  | none => (.error .commit, s)
  | some a => (.ok (), { s with db := a.db, cache := a.entries.foldl deferredStep s.cache, staged := [] })

/-- The cache drops a clean entry. -/
def evict (s : St K V) (k : K) : St K V :=
  match s.cache k with
  | some e => if e.isDirty then s else { s with cache := upd s.cache k none }
  | none => s

/-- The cache drops an entry whatever its status (not an operation of `Op`; see the header). -/
def evictDirty (s : St K V) (k : K) : St K V := { s with cache := upd s.cache k none }

/-- The operations of a history. -/
inductive Op (K V : Type)
  | get (k : K)
  | getClean (k : K)
  | add (k : K) (v : V)
  | update (k : K) (f : V → Option V)
  | remove (k : K)
  | commit (io : Bool)
  | stage
  | finalize (i : Nat)
  | rollback
  | evict (k : K)

/-- What the caller of an operation is given. -/
inductive Out (V : Type)
  | value (v : Option V)
  | done
  | err (e : Err)
  deriving DecidableEq, Repr

/-- The answer of an operation that returns a `Result<(), _>`. -/
def Out.ofRes : Except Err Unit → Out V
  | .ok _ => .done
  | .error e => .err e

/-- One operation. -/
def step (s : St K V) : Op K V → Out V × St K V
  | .get k => (.value (get s k).2, (get s k).1)
  | .getClean k => (.value (getClean s k).2, (getClean s k).1)
  | .add k v => (Out.ofRes (add s k v).1, (add s k v).2)
  | .update k f => (Out.ofRes (withMut s k .update f).1, (withMut s k .update f).2)
  | .remove k => (Out.ofRes (withMut s k .remove some).1, (withMut s k .remove some).2)
  | .commit io => (Out.ofRes (commit s io).1, (commit s io).2)
  | .stage => (Out.ofRes (stage s).1, (stage s).2)
  | .finalize i => (Out.ofRes (finalize s i).1, (finalize s i).2)
  | .rollback => (.done, rollback s)
  | .evict k => (.done, evict s k)

/-- A history and the answers given. -/
def run (s : St K V) : List (Op K V) → List (Out V) × St K V
  | [] => ([], s)
  | o :: os => ((step s o).1 :: (run (step s o).2 os).1, (run (step s o).2 os).2)

/-- A freshly opened manager over a database. -/
def opened (db : K → Option V) : St K V := { db := db, cache := fun _ => none, dirty := [], staged := [] }

end
end Fastroll.StateCache
