import Verif.Ring.Model
/-!
# What the ring verifier must be

The Gray Paper: when an epoch begins the pending set becomes the staging set with the keys of all offenders
(those of this block included) replaced by the null key, the ring root is the commitment to that set, and
the tickets of a block are checked against the pending set.
-/
namespace Fastroll.Ring.Spec
open Fastroll.Ring

/-- `e` is the set `s` with the punished keys nulled, position by position. -/
def Effective (s : List VKey) (p : List Nat) (e : List VKey) : Prop :=
  e.length = s.length ∧
  ∀ (i : Nat) (k : VKey), s[i]? = some k →
    (k.ed ∈ p ∧ e[i]? = some VKey.zero) ∨ (k.ed ∉ p ∧ e[i]? = some k)

/-- The pending set the tickets of block `b` on the chain state `c` are checked against. -/
def Pending (E : Nat) (c : Chain) (b : Block) (s : List VKey) : Prop :=
  (c.slot / E < b.slot / E ∧ Effective c.staging (c.punish ++ b.offenders) s) ∨
  (b.slot / E ≤ c.slot / E ∧ s = c.pending)

/-- The sets that can be behind a verifier in a history: designated sets and the staging and pending set at
the start, with some keys nulled. -/
def Occurs (c : Chain) (ops : List Op) (a : List VKey) : Prop :=
  ∃ s p, Effective s p a ∧
    (s = c.staging ∨ s = c.pending ∨ ∃ b, Op.block b ∈ ops ∧ b.designate = some s)

/-- No two different sets of the history have the same hash. -/
def NoCollision {V H : Type} (W : World V H) (c : Chain) (ops : List Op) : Prop :=
  ∀ a a', Occurs c ops a → Occurs c ops a' → W.hash a = W.hash a' → a = a'

/-- No block that begins an epoch designates a staging set. -/
def QuietStart (E : Nat) {V : Type} (es : List (Entry V)) : Prop :=
  ∀ e ∈ es, e.pre.slot / E < e.block.slot / E → e.block.designate = none

end Fastroll.Ring.Spec
