import Verif.Store.Model
import Verif.StateCache.Spec
import Verif.Trie.Spec
/-
What the store is meant to be: the transactions of C30 on a map from keys to values, whose root is the
Gray Paper's Merklization (C32) of the encoded map.
-/
namespace Fastroll.Store
open Fastroll
variable {V : Type}

/-- The operation of the transaction. -/
def Op.plain : Op V → StateCache.Op Key V
  | .get k => .get k
  | .getClean k => .getClean k
  | .add k v => .add k v
  | .update k f => .update k f
  | .remove k => .remove k
  | .commit => .commit true
  | .stage => .stage
  | .finalize i => .finalize i
  | .rollback => .rollback
  | .evict k => .evict k

/-- The transaction on an empty map. -/
def empty : StateCache.Spec.Abs Key V := StateCache.Spec.opened fun _ => none

/-- The transaction after a history. -/
def after (os : List (Op V)) : List (StateCache.Out V) × StateCache.Spec.Abs Key V :=
  StateCache.Spec.run empty (os.map Op.plain)

/-- A list of keys and octets is the encoding of a map. -/
def Represents (enc : V → Trie.Bytes) (kv : Trie.Spec.KV) (m : Key → Option V) : Prop :=
  (kv.map Prod.fst).Nodup ∧
  ∀ p b, (p, b) ∈ kv ↔ ∃ k : Key, k.1 = p ∧ ∃ v, m k = some v ∧ b = enc v

/-- Values written under a key are of the key's type `T`. -/
def Typed (T : Key → V → Prop) : Op V → Prop
  | .add k v => T k v
  | .update k f => ∀ v v', T k v → f v = some v' → T k v'
  | _ => True

/-- A history a caller may go through: operations are allowed in the sense of C30, no committed key is
removed and added again between commits (the only panic of the transaction), values are typed, and once
anything is committed one key `k0` always stays. -/
def Proper (T : Key → V → Prop) (k0 : Key) (a : StateCache.Spec.Abs Key V) : List (Op V) → Prop
  | [] => True
  | o :: os =>
    StateCache.Spec.allowed a o.plain = true ∧ (StateCache.Spec.step a o.plain).1 ≠ .err .panic ∧ Typed T o ∧
    ((∀ k, a.committed k = none) ∨
      (a.committed k0).isSome = true ∧ (StateCache.Spec.visible a k0).isSome = true) ∧
    Proper T k0 (StateCache.Spec.step a o.plain).2 os

/-- The state database has been given two strings with one hash. -/
def Collision (H : Trie.Bytes → Trie.Bytes) (s : Sys V) : Prop :=
  ∃ x ∈ s.trie.stateDb, ∃ y ∈ s.trie.stateDb, x.2 ≠ y.2 ∧ H x.2 = H y.2

end Fastroll.Store
