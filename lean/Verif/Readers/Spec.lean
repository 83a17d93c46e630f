import Verif.Readers.Model
/-
What the maps of the state manager mean, and which states and batches are sound.
-/
namespace Fastroll.Readers
open Fastroll StateCache
variable {K V : Type}

/-- The value the databases hold under a key. -/
def stored (s : Sys K V) (k : K) : Option V :=
  match s.trie k with
  | none => none
  | some (.embedded v) => some v
  | some (.hashed h) => s.sdb h

/-- The value a caller sees under a key. -/
def visible (s : Sys K V) (k : K) : Option V :=
  match s.cache k with
  | none => stored s k
  | some e => if e.status = .dirty .remove then none else some e.value

/-- Hashes in the trie are found in the state database, clean entries of the cache are what is stored, and the list of
dirty keys is right. -/
structure Good (s : Sys K V) : Prop where
  complete : ∀ k h, s.trie k = some (.hashed h) → (s.sdb h).isSome = true
  clean : ∀ k e, s.cache k = some e → e.status = .clean → stored s k = some e.value
  dirty : ∀ k, k ∈ s.dirty ↔ ∃ e, s.cache k = some e ∧ e.status ≠ .clean
  nodup : s.dirty.Nodup

/-- The leaf of a value holds it or its hash. -/
def LeafOk (leaf : V → Leaf V) : Prop := ∀ v w, leaf v = .embedded w → w = v

/-- No two of the values stored or written have one hash. -/
def Apart (leaf : V → Leaf V) (s : Sys K V) (es : List (K × Entry V)) : Prop :=
  ∀ p ∈ es, ∀ h, leaf p.2.value = .hashed h →
    (∀ v, s.sdb h = some v → v = p.2.value) ∧ ∀ q ∈ es, leaf q.2.value = .hashed h → q.2.value = p.2.value

/-- The value an entry leaves under its key. -/
def outcome (e : Entry V) : Option V := if e.status = .dirty .remove then none else some e.value

/-- The start: the writer has its entries, the readers have not begun. -/
def initial (s : Sys K V) (ks : List K) : Conf K V := ⟨s, .trie, ks.map .start⟩

end Fastroll.Readers
