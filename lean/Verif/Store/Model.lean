import Verif.StateCache.Model
import Verif.Trie.Model
/-
Model of the whole store behind the state transition: `StateManager` (state/src/manager.rs 742-1020) with
its cache of decoded entries (C30) on top of the Merkle trie and the state database (C32), which are owned
by an actor (state/src/merkle_interface/actor.rs).  The parts are the models of those areas; this file has
the code that connects them: what is fetched on a cache miss and how it is decoded, which entries a commit
hands to the trie, what is kept for a staged block, and what is left when the actor dies.

Simplifications.
* The commands of the actor are executed one at a time in the order they are sent (`run`, actor.rs 122-174);
  concurrent callers are the subject of C64.
* Database errors are left out, and so are the write-through caches in front of the databases (C31).
* The codecs of the entry types are a parameter.
-/
namespace Fastroll.Store
open Fastroll

/-- `StateKey`: 31 octets, here as bits. -/
abbrev Key := { p : Trie.Path // p.length = 248 }

/-- The codecs: `StateEntryType::encode` of a value, and `T::decode` for the type `T` that belongs to
a key. -/
structure Codec (V : Type) where
  enc : V → Trie.Bytes
  dec : Key → Trie.Bytes → Option V

/-- The state manager: the actor's trie with the two databases and the prepared commits, whether the
actor's task still runs, the cache, and the dirty entries of the staged blocks, last one first. -/
structure Sys (V : Type) where
  trie : Trie.Sys
  alive : Bool
  cache : Key → Option (StateCache.Entry V)
  dirty : List Key
  staged : List (List (Key × StateCache.Entry V))

/-- `StateManagerError`: those of the cache, those of the trie, `MerkleActorClosed`,
`StateDBMissingEntry`, and decoding errors. -/
inductive Err
  | cache (e : StateCache.Err) | trie (e : Trie.Err) | closed | missing | codec
  deriving DecidableEq, Repr

/-- Answers. -/
inductive Out (V : Type)
  | value (v : Option V) | done | err (e : Err)
  deriving DecidableEq, Repr

/-- The answers of the cache as answers of the manager. -/
def Out.ofCache {V : Type} : StateCache.Out V → Out V
  | .value v => .value v
  | .done => .done
  | .err e => .err (.cache e)

/-- Operations of the state manager; `evict` is the cache dropping a clean entry. -/
inductive Op (V : Type)
  | get (k : Key) | getClean (k : Key) | add (k : Key) (v : V) | update (k : Key) (f : V → Option V)
  | remove (k : Key) | commit | stage | finalize (i : Nat) | rollback | evict (k : Key)

section
variable {V : Type}

/-- An empty store (`StateManager::new`, manager.rs 230-260, on empty databases). -/
def Sys.init : Sys V := ⟨Trie.Sys.init, true, fun _ => none, [], []⟩

/-- `retrieve_state_encoded` and the decoding after it, manager.rs 742-768, 904-911, 942-949. -/
def fetch (C : Codec V) (s : Sys V) (k : Key) : Except Err (Option V) :=
  if s.alive then
    match Trie.retrieve s.trie k.1 with
    | .absent => .ok none
    | .missing => .error .missing
    | .value b =>
      match C.dec k b with
      | none => .error .codec
      | some v => .ok (some v)
  else .error .closed

/-- The cache over what the databases hold under the key in question. -/
def over (s : Sys V) (found : Option V) : StateCache.St Key V := ⟨fun _ => found, s.cache, s.dirty, []⟩

/-- What an operation of the cache answers and leaves behind. -/
def onCache (s : Sys V) (r : StateCache.Out V × StateCache.St Key V) : Out V × Sys V :=
  (Out.ofCache r.1, { s with cache := r.2.cache, dirty := r.2.dirty })

/-- An operation on one key (manager.rs 891-1020): on a cached entry it does not reach the databases. -/
def atKey (C : Codec V) (s : Sys V) (k : Key) (o : StateCache.Op Key V) : Out V × Sys V :=
  if (s.cache k).isSome then onCache s (StateCache.step (over s none) o)
  else
    match fetch C s k with
    | .error e => (.err e, s)
    | .ok found => onCache s (StateCache.step (over s found) o)

/-- A dirty entry as the trie takes it, merkle_interface/manager.rs 184-216; clean ones are skipped. -/
def toTrie (C : Codec V) (p : Key × StateCache.Entry V) : Option Trie.Entry :=
  match p.2.status with
  | .clean => none
  | .dirty .add => some ⟨p.1.1, .add, C.enc p.2.value⟩
  | .dirty .update => some ⟨p.1.1, .update, C.enc p.2.value⟩
  | .dirty .remove => some ⟨p.1.1, .remove, C.enc p.2.value⟩

/-- The trie refused a batch: the change set stays as it is, and a panic ends the actor's task (`tokio::spawn`,
manager.rs 250), which the caller sees as `MerkleActorClosed`. -/
def refused (s : Sys V) (x : Trie.Err) (t : Trie.Sys) : Out V × Sys V :=
  if x = .panic then (.err .closed, { s with trie := t, alive := false })
  else (.err (.trie x), { s with trie := t })

/-- `commit_dirty_cache`, manager.rs 837-869. -/
def commit (env : Trie.Env) (C : Codec V) (s : Sys V) : Out V × Sys V :=
  match StateCache.collectDirty (over s none) with
  | [] => (.done, s)
  | p :: ps =>
    if s.alive then
      match Trie.step env s.trie (.commit ((p :: ps).filterMap (toTrie C))) with
      | (.error x, t) => refused s x t
      | (.ok (), t) =>
        (.done, { s with trie := t, cache := (p :: ps).foldl StateCache.directStep s.cache, dirty := [] })
    else (.err .closed, s)

/-- `rollback_dirty_cache`, manager.rs 882-889. -/
def rollback (s : Sys V) : Sys V :=
  { s with cache := s.dirty.foldl StateCache.rollbackStep s.cache, dirty := [] }

/-- `prepare_dirty_cache_commit`, manager.rs 770-798, with the artifact kept by the caller. -/
def stage (env : Trie.Env) (C : Codec V) (s : Sys V) : Out V × Sys V :=
  match StateCache.collectDirty (over s none) with
  | [] => (.done, s)
  | p :: ps =>
    if s.alive then
      match Trie.prepare env s.trie.db s.trie.cs ((p :: ps).filterMap (toTrie C)) with
      | (.error x, cs) => refused s x { s.trie with cs := cs }
      | (.ok none, cs) => (.done, { s with trie := { s.trie with cs := cs } })
      | (.ok (some w), cs) =>
        (.done, rollback { s with
          trie := { s.trie with cs := cs, staged := s.trie.staged ++ [some w] }
          staged := (p :: ps) :: s.staged })
    else (.err .closed, s)

/-- `apply_dirty_cache_commit`, manager.rs 800-835, on the `i`-th staged block counted from the last;
the others are dropped. -/
def finalize (env : Trie.Env) (s : Sys V) (i : Nat) : Out V × Sys V :=
  match s.staged[i]? with
  | none => (.err (.cache .commit), s)
  | some es =>
    if s.alive then
      (.done, { s with
        trie := (Trie.step env s.trie (.finalize (s.staged.length - 1 - i))).2
        cache := es.foldl StateCache.deferredStep s.cache
        staged := [] })
    else (.err .closed, s)

/-- One operation. -/
def step (env : Trie.Env) (C : Codec V) (s : Sys V) : Op V → Out V × Sys V
  | .get k => atKey C s k (.get k)
  | .getClean k => atKey C s k (.getClean k)
  | .add k v => atKey C s k (.add k v)
  | .update k f => atKey C s k (.update k f)
  | .remove k => atKey C s k (.remove k)
  | .commit => commit env C s
  | .stage => stage env C s
  | .finalize i => finalize env s i
  | .rollback => (.done, rollback s)
  | .evict k => onCache s (StateCache.step (over s none) (.evict k))

/-- A history and its answers. -/
def run (env : Trie.Env) (C : Codec V) (s : Sys V) : List (Op V) → List (Out V) × Sys V
  | [] => ([], s)
  | o :: os => ((step env C s o).1 :: (run env C (step env C s o).2 os).1, (run env C (step env C s o).2 os).2)

/-- `merkle_root`, manager.rs (the actor's `GetMerkleRoot`, actor.rs 42-51). -/
def root (s : Sys V) : Except Err Trie.Bytes := if s.alive then .ok s.trie.db.root else .error .closed

end
end Fastroll.Store
