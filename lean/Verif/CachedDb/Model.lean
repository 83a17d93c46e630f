/-
Model of the write-through database cache: `db/src/core/cached_db.rs`.

The column family is a partial map from keys to encoded values and the cache (mini_moka) a
partial map from keys to decoded values from which entries can vanish at any time.  An operation
is split where the code awaits: a read that misses the cache fetches from the database and then
fills the cache, a write commits to the database and then updates the cache.  A database read error
is not modelled (`CoreDB::get_entry`, db/src/core/core_db.rs 56-72, turns it into "not found").
-/
namespace Fastroll.CachedDb

/-- The `CacheItem` codec of a value type, db/src/core/cached_db.rs 48-55. -/
structure Codec (K V B : Type) where
  enc : V → Option B
  dec : K → B → Option V

/-- Errors of the cached database. -/
inductive Err
  | codec | io
  deriving DecidableEq, Repr

/-- The column family and the cache, db/src/core/cached_db.rs 80-92. -/
structure St (K V B : Type) where
  db : K → Option B
  cache : K → Option V

/-- What is left of an operation after its database access: fill the cache with a value read, or
update the cache after a write. -/
inductive Task (K V : Type)
  | fill (k : K) (v : V)
  | sync (ws : List (K × Option V))
  deriving DecidableEq, Repr

section
variable {K V B : Type} [DecidableEq K]

/-- Pointwise update. -/
def upd {A : Type} (f : K → A) (k : K) (a : A) : K → A := fun k' => if k' = k then a else f k'

/-- The first part of `get_entry`, db/src/core/cached_db.rs 111-124: the cache, then the database. -/
def getStart (C : Codec K V B) (s : St K V B) (k : K) : Except Err (Option V) × Option (Task K V) :=
  match s.cache k with
  | some v => (.ok (some v), none)
  | none =>
    match s.db k with
    | none => (.ok none, none)
    | some b =>
      match C.dec k b with
      | none => (.error .codec, none)
      | some v => (.ok (some v), some (.fill k v))

/-- The encoded writes of a batch (`append_write_entries_to_write_batch`,
state/state-merkle-v2/src/merkle_change_set.rs 31-45, and the value of `put_entry`,
db/src/core/cached_db.rs 133-142). -/
def encodeAll (C : Codec K V B) : List (K × Option V) → Option (List (K × Option B))
  | [] => some []
  | (k, none) :: ws => (encodeAll C ws).map ((k, none) :: ·)
  | (k, some v) :: ws =>
    match C.enc v with
    | none => none
    | some b => (encodeAll C ws).map ((k, some b) :: ·)

/-- The writes of a batch, in order; RocksDB applies a batch atomically
(db/src/core/core_db.rs 115-124). -/
def writeDb (db : K → Option B) (bs : List (K × Option B)) : K → Option B :=
  bs.foldl (fun d p => upd d p.1 p.2) db

/-- The first part of `put_entry` (one write), `delete_entry` (one deletion) and
`commit_write_batch_and_sync_cache`, db/src/core/cached_db.rs 133-162. -/
def writeStart (C : Codec K V B) (s : St K V B) (ws : List (K × Option V)) (io : Bool) :
    Except Err Unit × St K V B × Option (Task K V) :=
  match encodeAll C ws with
  | none => (.error .codec, s, none)
  | some bs =>
    if io then (.ok (), { s with db := writeDb s.db bs }, some (.sync ws))
    else (.error .io, s, none)

/-- The second part of an operation: db/src/core/cached_db.rs 126-128, 143, 151, 163-170. -/
def finish (s : St K V B) : Task K V → St K V B
  | .fill k v => { s with cache := upd s.cache k (some v) }
  | .sync ws => { s with cache := ws.foldl (fun c p => upd c p.1 p.2) s.cache }

/-- Finish the rest of an operation, if there is one. -/
def finishOpt (s : St K V B) : Option (Task K V) → St K V B
  | none => s
  | some t => finish s t

/-- Operations that are not interleaved. -/
inductive Op (K V : Type)
  | get (k : K)
  | put (k : K) (v : V) (io : Bool)
  | delete (k : K) (io : Bool)
  | batch (ws : List (K × Option V)) (io : Bool)
  | evict (k : K)

/-- Answers. -/
inductive Out (V : Type)
  | value (v : Option V)
  | done
  | err (e : Err)
  deriving DecidableEq, Repr

/-- The answer of a read. -/
def Out.ofGet : Except Err (Option V) → Out V
  | .ok v => .value v
  | .error e => .err e

/-- The answer of a write. -/
def Out.ofWrite : Except Err Unit → Out V
  | .ok _ => .done
  | .error e => .err e

/-- A write carried through. -/
def writeWhole (C : Codec K V B) (s : St K V B) (ws : List (K × Option V)) (io : Bool) :
    Out V × St K V B :=
  (Out.ofWrite (writeStart C s ws io).1, finishOpt (writeStart C s ws io).2.1 (writeStart C s ws io).2.2)

/-- One operation, carried through. -/
def step (C : Codec K V B) (s : St K V B) : Op K V → Out V × St K V B
  | .get k => (Out.ofGet (getStart C s k).1, finishOpt s (getStart C s k).2)
  | .put k v io => writeWhole C s [(k, some v)] io
  | .delete k io => writeWhole C s [(k, none)] io
  | .batch ws io => writeWhole C s ws io
  | .evict k => (.done, { s with cache := upd s.cache k none })

/-- A history. -/
def run (C : Codec K V B) (s : St K V B) : List (Op K V) → List (Out V) × St K V B
  | [] => ([], s)
  | o :: os => ((step C s o).1 :: (run C (step C s o).2 os).1, (run C (step C s o).2 os).2)

/-! ### Interleaved operations -/

/-- The steps of concurrent callers: `&self` methods shared behind an `Arc`. -/
inductive Micro (K V : Type)
  | get (k : K)
  | write (ws : List (K × Option V)) (io : Bool)
  | finish (i : Nat)
  | evict (k : K)
  deriving DecidableEq, Repr

/-- Store, cache and the operations under way. -/
structure Sys (K V B : Type) where
  st : St K V B
  tasks : List (Task K V)

/-- One step of some caller. -/
def micro (C : Codec K V B) (y : Sys K V B) : Micro K V → Sys K V B
  | .get k => { y with tasks := (getStart C y.st k).2.toList ++ y.tasks }
  | .write ws io => { st := (writeStart C y.st ws io).2.1, tasks := (writeStart C y.st ws io).2.2.toList ++ y.tasks }
  | .finish i =>
    match y.tasks[i]? with
    | none => y
    | some t => { st := finish y.st t, tasks := y.tasks.eraseIdx i }
  | .evict k => { y with st := { y.st with cache := upd y.st.cache k none } }

/-- A schedule. -/
def runMicro (C : Codec K V B) (y : Sys K V B) (ms : List (Micro K V)) : Sys K V B :=
  ms.foldl (micro C) y

end
end Fastroll.CachedDb
