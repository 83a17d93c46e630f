import Verif.StateCache.Model
/-
Model of reads that run at the same time as a commit or the finalization of a staged block: tasks share
one `StateManager` (an `Arc`), whose methods await the Merkle actor and the databases, so other tasks run
in between.

* `get_state_entry_internal`, state/src/manager.rs 917-953, with `retrieve_state_encoded`, 742-768,
* `commit_dirty_cache`, 841-869, `apply_dirty_cache_commit`, 803-835,
* `apply_direct_commit` and `apply_deferred_commit`, state/src/cache.rs 190-230.

Each access to the cache for one key, each command of the Merkle actor and each access to the state
database is one step; steps of different tasks come in any order.

Simplifications.
* The trie is a map from keys to leaves; that it is one is C32 and C76.  A leaf holds its value or a hash.
* `leaf` gives the leaf made of a value; the values are decoded ones (C60, C76).
* The databases do not fail; the commit is one the trie accepts.
* The entry that `apply_direct_commit` reads and writes back for one key is changed in one step.
-/
namespace Fastroll.Readers
open Fastroll StateCache

/-- `LeafNodeData`, state-merkle-v2/src/types.rs: embedded or by hash. -/
inductive Leaf (V : Type)
  | embedded (v : V) | hashed (h : Nat)
  deriving DecidableEq, Repr

/-- What the tasks share. -/
structure Sys (K V : Type) where
  trie : K → Option (Leaf V)
  sdb : Nat → Option V
  cache : K → Option (Entry V)
  dirty : List K

/-- The answer of a read; the error is `StateDBMissingEntry`. -/
inductive Ans (V : Type)
  | value (v : Option V) | missing
  deriving DecidableEq, Repr

/-- Where a read of a key is: not begun, the cache missed, the leaf found, the value found, done. -/
inductive Pc (K V : Type)
  | start (k : K) | missed (k : K) | found (k : K) (h : Nat) | loaded (k : K) (v : V) | done (k : K) (a : Ans V)
  deriving DecidableEq, Repr

/-- Where the writer is: the actor's command, the state database, the cache key by key, the list of dirty
keys, finished. -/
inductive WPc (K V : Type)
  | trie | sdb | cache (rest : List (K × Entry V)) | clear | finished

section
variable {K V : Type} [DecidableEq K]

/-- What is written to the trie for an entry, merkle_interface/manager.rs 184-216. -/
def writeLeaf (leaf : V → Leaf V) (t : K → Option (Leaf V)) (p : K × Entry V) : K → Option (Leaf V) :=
  match p.2.status with
  | .clean => t
  | .dirty .remove => upd t p.1 none
  | .dirty _ => upd t p.1 (some (leaf p.2.value))

/-- What is written to the state database for an entry. -/
def writeSdb (leaf : V → Leaf V) (d : Nat → Option V) (p : K × Entry V) : Nat → Option V :=
  match p.2.status with
  | .clean => d
  | .dirty .remove => d
  | .dirty _ =>
    match leaf p.2.value with
    | .embedded _ => d
    | .hashed h => upd d h (some p.2.value)

/-- One step of a read. -/
def readStep (s : Sys K V) : Pc K V → Sys K V × Pc K V
  | .start k =>
    match s.cache k with
    | some e => (s, .done k (.value (if e.status = .dirty .remove then none else some e.value)))
    | none => (s, .missed k)
  | .missed k =>
    match s.trie k with
    | none => (s, .done k (.value none))
    | some (.embedded v) => (s, .loaded k v)
    | some (.hashed h) => (s, .found k h)
  | .found k h =>
    match s.sdb h with
    | none => (s, .done k .missing)
    | some v => (s, .loaded k v)
  | .loaded k v => ({ s with cache := upd s.cache k (some (Entry.fresh v)) }, .done k (.value (some v)))
  | .done k a => (s, .done k a)

/-- One step of the writer on the entries `es`: those of the dirty cache (`now`), or of a staged block. -/
def writeStep (leaf : V → Leaf V) (now : Bool) (es : List (K × Entry V)) (s : Sys K V) : WPc K V → Sys K V × WPc K V
  | .trie => ({ s with trie := es.foldl (writeLeaf leaf) s.trie }, .sdb)
  | .sdb => ({ s with sdb := es.foldl (writeSdb leaf) s.sdb }, .cache es)
  | .cache (p :: rest) =>
    ({ s with cache := if now then directStep s.cache p else deferredStep s.cache p }, .cache rest)
  | .cache [] => (s, if now then .clear else .finished)
  | .clear => ({ s with dirty := [] }, .finished)
  | .finished => (s, .finished)

/-- Shared state, writer and readers. -/
structure Conf (K V : Type) where
  sys : Sys K V
  writer : WPc K V
  readers : List (Pc K V)

/-- Whose step is next; `evict` is the cache dropping a clean entry. -/
inductive Ev (K : Type)
  | writer | reader (i : Nat) | evict (k : K)

/-- One step. -/
def step (leaf : V → Leaf V) (now : Bool) (es : List (K × Entry V)) (c : Conf K V) : Ev K → Conf K V
  | .writer =>
    let r := writeStep leaf now es c.sys c.writer
    { c with sys := r.1, writer := r.2 }
  | .reader i =>
    match c.readers[i]? with
    | none => c
    | some pc =>
      let r := readStep c.sys pc
      { c with sys := r.1, readers := c.readers.set i r.2 }
  | .evict k =>
    match c.sys.cache k with
    | some e => if e.isDirty then c else { c with sys := { c.sys with cache := upd c.sys.cache k none } }
    | none => c

/-- A schedule. -/
def run (leaf : V → Leaf V) (now : Bool) (es : List (K × Entry V)) (c : Conf K V) (evs : List (Ev K)) : Conf K V :=
  evs.foldl (step leaf now es) c

/-- `collect_dirty`, state/src/cache.rs 179-185. -/
def collect (s : Sys K V) : List (K × Entry V) := s.dirty.filterMap fun k => (s.cache k).map fun e => (k, e)

end
end Fastroll.Readers
