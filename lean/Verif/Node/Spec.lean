import Verif.Node.Model
import Verif.Delta.SpecAcct
import Verif.Svc.SpecMerge
import Verif.Stf.Spec

/-!
# Specification of chains whose blocks execute services
-/
namespace Fastroll.Node
open Fastroll.Svc (Global Boxes PState)
variable {σ η ρ : Type}

/-- The sizes of what privileged services may change: a staged set has all validators; every core has an
assigner and a queue of full length; the always-accumulate services are in order and different. -/
structure Fits {β : Type} (P : Svc.Params) (p : PState β) : Prop where
  staging : ∀ l, p.staging = some l → l.length = P.validators
  queues : p.authQueue.length = P.cores ∧ ∀ q ∈ p.authQueue, q.length = P.authQueue
  assign : p.assign.confirmed.length = P.cores ∧ ∀ l, p.assign.byBless = some l → l.length = P.cores
  always : (p.always.map Prod.fst).Pairwise (· < ·)

/-- The same of a state of the chain. -/
structure Roles (P : Svc.Params) (s : State η ρ) : Prop where
  queues : s.queues.length = P.cores ∧ ∀ q ∈ s.queues, q.length = P.authQueue
  assign : s.world.χ.assign.length = P.cores
  always : (s.world.χ.always.map Prod.fst).Pairwise (· < ·)

/-- The constants of the areas agree. -/
structure Coherent (N : Par σ η ρ) : Prop where
  epoch : 0 < N.S.epoch
  validators : 0 < N.S.validators
  same : N.P.V = N.S.validators ∧ N.par.validators = N.S.validators
  hist : N.P.histLen ≠ 0
  pool : N.P.poolLen ≠ 0
  cores : 0 < N.P.C ∧ ∃ k, 0 < k ∧ N.S.validators = N.P.C * k
  full : ∀ r, (N.full r).core = r.core
  gas : N.K.total < 2 ^ 64

/-- The work items for service `s` among the reports. -/
def workFor (acc : List Acc.Report) (s : Nat) : Nat := ((acc.flatMap Acc.Report.digests).filter fun d => d.svc == s).length

/-- The gas service `s` used in the rounds it was called in. -/
def spentBy (Rs : List Delta.Round) (s : Nat) : Nat :=
  ((Rs.flatMap Delta.Round.counted).filter fun r => r.host == s).map (Svc.AccResult.gas) |>.sum

/-- The service is given the slot of the block: it had work or used gas, as the counters hold them. -/
def Stamped (Rs : List Delta.Round) (acc : List Acc.Report) (s : Nat) : Prop := spentBy Rs s % 2 ^ 64 ≠ 0 ∨ workFor acc s % 2 ^ 32 ≠ 0

/-- What the block `b` on top of `s` executes, given the accounts before it. -/
def World (N : Par σ η ρ) (s : State η ρ) (b : Blk σ η) : Delta.World := N.delta s.world.accounts b.slot (N.C.mix s.e0 b.vrf)

/-- Where its rounds start. -/
def opened (N : Par σ η ρ) (s : State η ρ) : PState Boxes := Delta.start s.world.χ (s.queues.map fun q => q.map N.oct)

/-- The block `b` on top of `s` executes the rounds `Rs`, accumulates `acc` and gives `s'`: the rounds take exactly
these reports, in order; what the last of them leaves, `v`, is what the block leaves. -/
structure Executed (N : Par σ η ρ) (s : State η ρ) (b : Blk σ η) (acc : List Acc.Report) (s' : State η ρ) (Rs : List Delta.Round) (v : PState Boxes) : Prop where
  faithful : ∀ R ∈ Rs, R.Faithful (World N s b)
  chain : Delta.Chain (opened N s) [] Rs v
  always : Delta.AlwaysFirst s.world.χ.always Rs
  reports : Rs.flatMap Delta.Round.reports = acc
  privileges : s'.world.χ = ⟨v.manager, v.assign.confirmed, v.designate.confirmed, v.registrar.confirmed, v.always⟩
  queues : s'.queues = v.authQueue.map fun q => q.map N.num
  staging : s'.staging = (v.staging.map fun l => l.map N.key).getD s.staging
  sorted : s'.outputs.Pairwise Delta.OutLt
  outputs : ∀ x, x ∈ s'.outputs ↔ ∃ R ∈ Rs, x ∈ R.outputs

/-- The accounts the block leaves: `a` is what its rounds wrote back. The services that had work are given the
slot, and the preimages of the block are entered. -/
structure Accounted (N : Par σ η ρ) (s : State η ρ) (b : Blk σ η) (acc : List Acc.Report) (s' : State η ρ) (Rs : List Delta.Round) (v : PState Boxes) (a : Global) : Prop where
  written : Delta.WrittenBack s.world.accounts v.boxes a
  stamped : ∀ x, Stamped Rs acc x → s'.world.accounts.metas x = (a.metas x).map fun m => { m with lastAcc := b.slot }
  others : ∀ x, ¬ Stamped Rs acc x → s'.world.accounts.metas x = a.metas x
  storage : s'.world.accounts.storage = a.storage
  preimages : ∀ x h d, s'.world.accounts.preimages x h = some d → a.preimages x h = some d ∨
    ((x, d) ∈ b.preimages ∧ h = N.blake d ∧ s.world.accounts.lookups x (h, d.length % 2 ^ 32) = some [] ∧ a.lookups x (h, d.length % 2 ^ 32) = some [])
  lookups : ∀ x k, s'.world.accounts.lookups x k = a.lookups x k ∨
    (a.lookups x k = some [] ∧ s'.world.accounts.lookups x k = some [b.slot] ∧ ∃ d, (x, d) ∈ b.preimages ∧ k = (N.blake d, d.length % 2 ^ 32))

/-- The programs the block runs are careful (`C71_accounts`). -/
def Tame (N : Par σ η ρ) (s : State η ρ) (b : Blk σ η) : Prop :=
  ∀ Rs v, (∀ R ∈ Rs, R.Faithful (World N s b)) → Delta.Chain (opened N s) [] Rs v → ∀ R ∈ Rs, R.Careful (World N s b) (Delta.Busy s.world.accounts Rs)

/-- In the block the designate service staged the key `k`. -/
def Designated (N : Par σ η ρ) (s : State η ρ) (b : Blk σ η) (acc : List Acc.Report) (s' : State η ρ) (k : Safrole.VKey Nat) : Prop :=
  ∃ Rs v, Executed N s b acc s' Rs v ∧ ∃ R ∈ Rs, ∃ r ∈ R.results, r.host = R.start.designate.confirmed ∧ ∃ l, r.p.staging = some l ∧ ∃ x ∈ l, k = N.key x

/-- In the block the assigner of core `c` put the authorizer `x` into the core's queue. -/
def Assigned (N : Par σ η ρ) (s : State η ρ) (b : Blk σ η) (acc : List Acc.Report) (s' : State η ρ) (c x : Nat) : Prop :=
  ∃ Rs v, Executed N s b acc s' Rs v ∧ ∃ R ∈ Rs, ∃ r ∈ R.results, R.start.assign.confirmed[c]? = some r.host ∧
    ∃ q, r.p.authQueue[c]? = some q ∧ ∃ y ∈ q, x = N.num y

/-- The block with index `i` of a chain from `s`, the states before and after it and what it accumulated. -/
structure At (N : Par σ η ρ) (s : State η ρ) (bs : Blocks σ η) (accs : List (List Acc.Report)) (i : Nat) (t : State η ρ) (b : Blk σ η) (acc : List Acc.Report) (t' : State η ρ) : Prop where
  block : bs[i]?.map Prod.snd = some b
  acc : accs[i]? = some acc
  before : Stf.Spec.Reached (world N) s bs i t
  after : Stf.Spec.Reached (world N) s bs (i + 1) t'

/-- The key was staged by the designate service in some block of the chain, and at least `n` epochs have begun in
blocks after it. -/
def StagedAgo (N : Par σ η ρ) (s : State η ρ) (bs : Blocks σ η) (accs : List (List Acc.Report)) (k : Safrole.VKey Nat) (n : Nat) : Prop :=
  ∃ i t b acc t', At N s bs accs i t b acc t' ∧ Designated N t b acc t' k ∧ n ≤ Stf.Spec.openings N.S.epoch b.slot ((bs.drop (i + 1)).map fun b => b.2.slot)

end Fastroll.Node
