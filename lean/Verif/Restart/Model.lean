import Verif.Store.Model
/-
Model of starting a node, for the first time and again on the databases an earlier run has left behind.

Transcribes
* `/repo/node/src/jam_node/init.rs` lines 15-46 (`init_storage`, `set_genesis_state`) and 72-73 (its call in `init_node`,
  made on every start; `cli/src/main.rs` 33 ends with the error),
* `/repo/state/src/state_utils.rs` lines 278-308 (`add_all_simple_state_entries`),
* `/repo/state/src/manager.rs` lines 225-260 (`StateManager::from_core_db`, `new`),
* `/repo/block/src/header_db.rs` lines 71-98 (`BlockHeaderDB::new`, `commit_header`),
* `/repo/config/src/lib.rs` lines 94-97 (the path of the database depends on the node only, so the next run opens the same).

The state manager is the one of C76.  Simplifications.
* Headers are kept by their hash; the extrinsics stored under the zero hash (init.rs 28-31) are left out.  Writing
  headers and roots does not fail.
* The network part of `init_node` is left out.
-/
namespace Fastroll.Restart
open Fastroll Store

section
variable {V : Type}

/-- What starting touches: the state manager, the best header (in memory; the default header is `none`), the headers
and the posterior state roots by header hash (both on disk, the newest first). -/
structure Disk (V : Type) where
  store : Store.Sys V
  best : Option Trie.Bytes
  headers : List Trie.Bytes
  roots : List (Trie.Bytes × Trie.Bytes)

/-- The genesis block: its header hash and the entries of `genesis_simple_state`, in the order they are added. -/
structure Genesis (V : Type) where
  hash : Trie.Bytes
  entries : List (Key × V)

/-- Before the first start. -/
def Disk.fresh : Disk V := ⟨Store.Sys.init, none, [], []⟩

/-- The state manager of a new process on the databases of an earlier one, manager.rs 225-260: an empty cache, a new
actor, nothing staged, and a trie that does not know its root. -/
def reopenStore (s : Store.Sys V) : Store.Sys V := ⟨s.trie.reopen, true, fun _ => none, [], []⟩

/-- A new process on the databases of an earlier one, whenever that ended: `init_storage`, init.rs 15-17. -/
def Disk.reopen (d : Disk V) : Disk V := { d with store := reopenStore d.store, best := none }

/-- `add_all_simple_state_entries`, state_utils.rs 278-308: the first failure ends it. -/
def addAll (env : Trie.Env) (C : Codec V) (s : Store.Sys V) : List (Key × V) → Except Err Unit × Store.Sys V
  | [] => (.ok (), s)
  | e :: es =>
    match Store.step env C s (.add e.1 e.2) with
    | (.err x, s) => (.error x, s)
    | (_, s) => addAll env C s es

/-- The genesis state added and committed, init.rs 34-37. -/
def writeGenesis (env : Trie.Env) (C : Codec V) (s : Store.Sys V) (es : List (Key × V)) : Except Err Unit × Store.Sys V :=
  match addAll env C s es with
  | (.error x, s) => (.error x, s)
  | (.ok (), s) =>
    match Store.step env C s .commit with
    | (.err x, s) => (.error x, s)
    | (_, s) => (.ok (), s)

/-- `set_genesis_state`, init.rs 19-46. -/
def start (env : Trie.Env) (C : Codec V) (g : Genesis V) (d : Disk V) : Except Err Unit × Disk V :=
  match writeGenesis env C d.store g.entries with
  | (.error x, s) => (.error x, ⟨s, some g.hash, g.hash :: d.headers, d.roots⟩)
  | (.ok (), s) =>
    match Store.root s with
    | .error x => (.error x, ⟨s, some g.hash, g.hash :: d.headers, d.roots⟩)
    | .ok r => (.ok (), ⟨s, some g.hash, g.hash :: d.headers, (g.hash, r) :: d.roots⟩)

/-- One run of the node: what `set_genesis_state` answers and, if it succeeds, what the state manager does until the
process ends. -/
def life (env : Trie.Env) (C : Codec V) (g : Genesis V) (d : Disk V) (os : List (Op V)) : Except Err Unit × Disk V :=
  match start env C g d.reopen with
  | (.error x, d) => (.error x, d)
  | (.ok (), d) => (.ok (), { d with store := (Store.run env C d.store os).2 })

/-- Runs of the node, one after the other. -/
def lives (env : Trie.Env) (C : Codec V) (g : Genesis V) (d : Disk V) : List (List (Op V)) → List (Except Err Unit) × Disk V
  | [] => ([], d)
  | os :: oss =>
    ((life env C g d os).1 :: (lives env C g (life env C g d os).2 oss).1, (lives env C g (life env C g d os).2 oss).2)

end
end Fastroll.Restart
