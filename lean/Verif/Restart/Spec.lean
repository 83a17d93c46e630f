import Verif.Restart.Model
import Verif.Store.Spec
/-
What starting is meant to do, on the map of C76.
-/
namespace Fastroll.Restart
open Fastroll Store
variable {V : Type}

/-- The first start as a history of the transaction: the entries are added and committed. -/
def genesisOps (g : Genesis V) : List (Op V) := g.entries.map (fun e => .add e.1 e.2) ++ [.commit]

/-- The encoded genesis state. -/
def Genesis.encoded (enc : V → Trie.Bytes) (g : Genesis V) : Trie.Spec.KV := g.entries.map fun e => (e.1.1, enc e.2)

/-- A genesis state: some entries, each key once. -/
def Genesis.Ok (g : Genesis V) : Prop := g.entries ≠ [] ∧ (g.entries.map Prod.fst).Nodup

/-- Two stores with the same databases. -/
def SameData (s s' : Store.Sys V) : Prop :=
  s.trie.db.nodes = s'.trie.db.nodes ∧ s.trie.db.leafPaths = s'.trie.db.leafPaths ∧ s.trie.stateDb = s'.trie.stateDb

/-- A transaction opened on what an earlier one has committed: pending writes and staged blocks are gone. -/
def resumed (os : List (Op V)) : StateCache.Spec.Abs Key V := StateCache.Spec.opened (after os).2.committed

end Fastroll.Restart
