import Verif.Stf.Model
import Verif.Reports.Spec
import Verif.Safrole.Spec
/-!
# What the state transition of a block should do
-/
namespace Fastroll.Stf.Spec
open Fastroll.Safrole (VKey)
open Fastroll.Merkle (Bytes)
variable {σ η ρ ω π : Type}

/-- A chain as it is imported: blocks with the ancestors known at the time. -/
abbrev Blocks (σ η π : Type) := List (Option (Nat → Nat → Bool) × Blk σ η π)

/-- State `t` is reached after the first `i` blocks. -/
def Reached (W : World σ η ρ ω π) (s0 : State η ρ ω) (bs : Blocks σ η π) (i : Nat) (t : State η ρ ω) : Prop := ∃ accs, run W (bs.take i) s0 = .ok (t, accs)

/-- The start of a chain: nothing pending, nothing waiting, nothing accumulated, no history. -/
structure Genesis (W : World σ η ρ ω π) (s : State η ρ ω) : Prop where
  slot : s.slot = 0
  pending : ∀ p ∈ s.pending, p = none
  hist : s.hist = []
  ready : s.ready = List.replicate W.S.epoch []
  done : s.done = List.replicate W.S.epoch []

/-- The validators, the entropy and the slot that decide who may guarantee in slot `slot` a report included in the
block that left `t`: those of the current rotation, or those of the one before, which may be of the epoch before. -/
def guarding (W : World σ η ρ ω π) (t : State η ρ ω) (slot : Nat) : List (VKey Nat) × η × Nat :=
  if slot / W.P.rotation = t.slot / W.P.rotation then (t.active, t.e2, t.slot)
  else if (t.slot - W.P.rotation) / W.S.epoch = t.slot / W.S.epoch then (t.active, t.e2, t.slot - W.P.rotation)
  else (t.past, t.e3, t.slot - W.P.rotation)

/-- Validators are guarantors of a core by the shuffle of their epoch's entropy, rotated. -/
def coreOf (W : World σ η ρ ω π) (e : η) (slot voter : Nat) : Option Nat :=
  (Shuffle.permute ⟨W.S.validators, W.P.C, W.S.epoch, W.P.rotation⟩ W.blake (W.octets e) slot).bind fun cores => cores[voter]?

/-- The guarantee is signed by two or three different validators assigned to the report's core, none of them an
offender. -/
structure Attested (W : World σ η ρ ω π) (t : State η ρ ω) (g : Reports.Guarantee σ) : Prop where
  count : g.creds.length = 2 ∨ g.creds.length = 3
  distinct : (g.creds.map Reports.Cred.voter).Nodup
  each : ∀ c ∈ g.creds, ∃ v, (guarding W t g.slot).1[c.voter]? = some v ∧ v.ed ∉ t.judged.punish ∧
    W.ver v.ed (.guarantee (W.hash g.report)) c.sig = true ∧ coreOf W (guarding W t g.slot).2.1 (guarding W t g.slot).2.2 c.voter = some g.report.core

/-- More than two thirds of the validators active in `t` sign, on top of the parent, that they hold the data of the
report on `core`. -/
structure Assured (W : World σ η ρ ω π) (t : State η ρ ω) (b : Blk σ η π) (core : Nat) : Prop where
  quorum : 2 * W.P.V < 3 * (Reports.Spec.assurers b.assurances core).length
  distinct : (Reports.Spec.assurers b.assurances core).Nodup
  each : ∀ i ∈ Reports.Spec.assurers b.assurances core, ∃ a ∈ b.assurances, a.voter = i ∧ a.bits[core]? = some true ∧ a.parent = b.parent ∧
    ∃ v, t.active[i]? = some v ∧ W.verAvail v.ed b.parent a.bits a.sig = true

/-- What is accumulated is the work of a report. -/
structure Same (r : Acc.Report) (q : Reports.Report) : Prop where
  pkg : r.pkg = q.pkg
  prereqs : r.prereqs = q.prereqs
  lookup : r.lookup = q.lookup.map Prod.fst
  services : r.digests.map Acc.Digest.svc = q.digests.map Reports.Digest.service
  gas : r.digests.map Acc.Digest.gas = q.digests.map Reports.Digest.gas

/-- The packages pending on a core. -/
def pendingPkgs (s : State η ρ ω) : List Nat := s.pending.filterMap fun p => p.map fun p => p.report.pkg

/-- The packages waiting for others. -/
def waitingPkgs (s : State η ρ ω) : List Nat := s.ready.flatten.map fun e => e.1.pkg

/-- A package determines the anchor its report was made with (it is part of the package), among the guarantees of a
chain. -/
def AnchorFixed (bs : Blocks σ η π) : Prop :=
  ∀ b ∈ bs, ∀ g ∈ b.2.guarantees, ∀ b' ∈ bs, ∀ g' ∈ b'.2.guarantees, g.report.pkg = g'.report.pkg → g.report.anchor = g'.report.anchor

/-- The number of blocks that open an epoch, after a block in slot `slot`. -/
def openings (E : Nat) : Nat → List Nat → Nat
  | _, [] => 0
  | slot, n :: l => (if slot / E < n / E then 1 else 0) + openings E n l

/-- A set of validators without a key. -/
def Without (k : Nat) (set : List (VKey Nat)) : Prop := ∀ v ∈ set, v.ed ≠ k

/-- The lengths of the components. -/
structure Shape (W : World σ η ρ ω π) (s : State η ρ ω) : Prop where
  validators : s.saf.pending.length = W.S.validators ∧ s.active.length = W.S.validators ∧ s.past.length = W.S.validators ∧ s.staging.length = W.S.validators
  tickets : s.saf.acc.length ≤ W.S.epoch
  sealers : s.saf.sealers.length = W.S.epoch
  cores : s.pending.length = W.P.C ∧ s.pools.length = W.P.C
  own : ∀ c p, Reports.Spec.At s.pending c p → p.report.core = c
  hist : s.hist.length ≤ W.P.histLen
  pools : ∀ pool ∈ s.pools, pool.length ≤ W.P.poolLen
  rings : s.ready.length = W.S.epoch ∧ s.done.length = W.S.epoch
  stats : s.stats.curr.length = W.P.V

/-- What the parameters of the transition have to respect. -/
structure Sound (W : World σ η ρ ω π) : Prop where
  epoch : 0 < W.S.epoch
  validators : 0 < W.S.validators
  same : W.P.V = W.S.validators
  hist : W.P.histLen ≠ 0
  pool : W.P.poolLen ≠ 0
  staged : ∀ i o v, W.accumulate i = some o → o.staged = some v → v.length = W.S.validators
  count : ∀ i o, W.accumulate i = some o → o.count ≤ i.reports.length
  cores : 0 < W.P.C ∧ ∃ k, 0 < k ∧ W.S.validators = W.P.C * k
  full : ∀ r, (W.full r).core = r.core

/-- A block without extrinsics. -/
structure Empty (b : Blk σ η π) : Prop where
  tickets : b.tickets = []
  disputes : b.disputes = ⟨[], [], []⟩
  assurances : b.assurances = []
  guarantees : b.guarantees = []

end Fastroll.Stf.Spec
