import Verif.Duty.Model
import Verif.Chain.Spec
import Verif.Safrole.Spec

/-!
# What authoring must do

Slots as intervals of time, the fallback rule of the Gray Paper for the author of a slot, and the connection between the
Safrole state and the state of the importer.
-/
namespace Fastroll.Duty.Paper
open Fastroll.Wire Fastroll.Duty
open Fastroll.Chain (World St over)
open Fastroll.Safrole (Par Heap Crypto VKey header sealerAt epochOf phaseOf)

/-- The time `t` (milliseconds of the Unix clock) lies in slot `n`: slots last six seconds and slot 0 begins at the
start of the common era, 2025-01-01 12:00 UTC. -/
def During (n t : Nat) : Prop := 1735732800000 + 6000 * n ≤ t ∧ t < 1735732800000 + 6000 * (n + 1)

instance (n t : Nat) : Decidable (During n t) := inferInstanceAs (Decidable (_ ∧ _))

/-- The fallback rule `F(η2, κ)`: slot `slot` belongs to the key chosen by the hash of the entropy and of the place of
the slot in its epoch. -/
def Assigned {κ ρ η : Type} (P : Par) (C : Crypto κ ρ η) (set : List (VKey κ)) (eta2 : η) (slot : Nat) (key : κ) : Prop :=
  ∃ v, set[C.word eta2 (phaseOf P slot) % P.validators]? = some v ∧ key = v.bander

/-- The winning tickets of the epoch of `s` seal the next one: the contest is over and the accumulator is full. -/
def Contested {κ ρ η : Type} (P : Par) (s : Safrole.State κ ρ η) : Prop :=
  P.contest ≤ phaseOf P s.slot ∧ s.saf.acc.length = P.epoch

variable {K V ρ ρ' : Type} [DecidableEq K]

/-- The state of the importer model carries a Safrole state, read by `rd`, on which the first phase of a block without
extrinsics acts as the Safrole model says. -/
structure Carries (H : Heap) (P : Par) (C : Crypto Bytes ρ' Bytes) (W : World K V ρ)
    (rd : St K V → Safrole.State Bytes ρ' Bytes) : Prop where
  pre : ∀ i s r d r' m, i.tickets = [] → W.pre i s s r = (d, r', some m) →
    ∃ punished vrf staged, header H P C (rd s) ⟨i.slot, [], punished, vrf, staged⟩ = some (rd (over d s))
  key : ∀ s slot k, sealerAt P (rd s).saf.sealers slot = some (.key k) → W.sealer s slot = .key k
  ticket : ∀ s slot t, sealerAt P (rd s).saf.sealers slot = some (.ticket t) → ∃ t', W.sealer s slot = .ticket t'
  author : ∀ s i, W.authorKey s i = ((rd s).active[i]?).map VKey.bander

/-- Signatures made with `sk` verify under `pk` only. -/
def Binds (W : World K V ρ) (sk pk : Bytes) : Prop := ∀ i m pk', W.verify i m (W.sign sk i m) pk' = true → pk' = pk

end Fastroll.Duty.Paper
