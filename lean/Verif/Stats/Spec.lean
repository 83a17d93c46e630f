import Verif.Stats.Model

/-!
# What the activity statistics should be

Stated with plain sums of natural numbers over the blocks, reports, digests and preimages concerned
(Gray Paper section 13). Counters of `n` bits hold the sum modulo `2^n`.
-/
namespace Fastroll.Stats

/-- The number of elements with a property. -/
def countIf {α : Type} (p : α → Bool) (l : List α) : Nat := (l.filter p).length
/-- The sum of `f` over the elements with a property. -/
def sumIf {α : Type} (p : α → Bool) (f : α → Nat) (l : List α) : Nat := ((l.filter p).map f).sum

/-- The validator's key reported in the block. -/
def reported {K : Type} [DecidableEq K] (v : Nat) (b : Block K) : Bool :=
  b.active[v]?.any (fun k => decide (k ∈ b.reporters))
/-- The validator assured availability in the block. -/
def assured {K : Type} (v : Nat) (b : Block K) : Bool := b.assurances.any (fun a => decide (a.validator = v))
/-- The validator is the author of the block. -/
def authored {K : Type} (v : Nat) (b : Block K) : Bool := decide (b.author = v)

/-- The entry of validator `v` is right for an epoch made of the given blocks. -/
structure ValRight {K : Type} [DecidableEq K] (v : Nat) (bs : List (Block K)) (e : ValEntry) : Prop where
  blocks : e.blocks.toNat = countIf (authored v) bs % 2 ^ 32
  tickets : e.tickets.toNat = sumIf (authored v) Block.tickets bs % 2 ^ 32
  preimages : e.preimages.toNat = sumIf (authored v) (fun b => b.preimages.length) bs % 2 ^ 32
  octets : e.octets.toNat = sumIf (authored v) (fun b => (b.preimages.map Preimage.len).sum) bs % 2 ^ 32
  guarantees : e.guarantees.toNat = countIf (reported v) bs % 2 ^ 32
  assurances : e.assurances.toNat = countIf (assured v) bs % 2 ^ 32

/-- The reports of a core. -/
def onCore (c : Nat) (r : Report) : Bool := decide (r.core = c)
/-- The digests of the guaranteed reports of core `c`. -/
def coreDigests {K : Type} (c : Nat) (b : Block K) : List Digest :=
  (b.guarantees.filter (onCore c)).flatMap Report.digests

/-- The segments the guarantors of a report put into the import store: the exported segments and one page of
proofs for every 64 of them (`⌈65 n / 64⌉` in all). -/
def storedSegments (n : Nat) : Nat := n + (n + 63) / 64
/-- The octets a report places in the audit and import stores. -/
def paperLoad (r : Report) : Nat := r.bundleLen.toNat + 4104 * storedSegments r.segCount.toNat

/-- The entry of core `c` is right for the block, but for the data-availability load. -/
structure CoreRight {K : Type} (c : Nat) (b : Block K) (e : CoreEntry) : Prop where
  assurers : e.assurers.toNat = countIf (fun a => a.bits[c]?.getD false) b.assurances % 2 ^ 16
  imports : e.imports.toNat = ((coreDigests c b).map (fun d => d.imports.toNat)).sum % 2 ^ 16
  xts : e.xts.toNat = ((coreDigests c b).map (fun d => d.xts.toNat)).sum % 2 ^ 16
  xtOctets : e.xtOctets.toNat = ((coreDigests c b).map (fun d => d.xtOctets.toNat)).sum % 2 ^ 32
  exports : e.exports.toNat = ((coreDigests c b).map (fun d => d.exports.toNat)).sum % 2 ^ 16
  bundle : e.bundle.toNat = sumIf (onCore c) (fun r => r.bundleLen.toNat) b.guarantees % 2 ^ 32
  gas : e.gas.toNat = ((coreDigests c b).map (fun d => d.gas.toNat)).sum % 2 ^ 64

/-- The entry of a service. -/
def entryOf (m : List (Nat × SvcEntry)) (id : Nat) : Option SvcEntry :=
  (m.find? (fun p => decide (p.1 = id))).map Prod.snd

/-- The digests of service `id` in the guaranteed reports. -/
def svcDigests {K : Type} (id : Nat) (b : Block K) : List Digest :=
  (b.guarantees.flatMap Report.digests).filter (fun d => decide (d.service = id))
/-- The preimages of service `id`. -/
def svcPreimages {K : Type} (id : Nat) (b : Block K) : List Preimage :=
  b.preimages.filter (fun p => decide (p.service = id))

/-- The digests of service `id` in the accumulated reports. -/
def accDigests (id : Nat) (reports : List Report) : Nat :=
  countIf (fun d => decide (d.service = id)) (reports.flatMap Report.digests)
/-- The gas service `id` used in accumulation. -/
def accGas (id : Nat) (gs : List (Nat × UInt64)) : Nat :=
  sumIf (fun p => decide (p.1 = id)) (fun p => p.2.toNat) gs

/-- The entry of service `id` is right for the block, its accumulated reports and the gas they used. -/
structure SvcRight {K : Type} (id : Nat) (b : Block K) (reports : List Report) (gs : List (Nat × UInt64))
    (e : SvcEntry) : Prop where
  preimages : e.preimages.toNat = (svcPreimages id b).length % 2 ^ 16
  preimageOctets : e.preimageOctets.toNat = ((svcPreimages id b).map Preimage.len).sum % 2 ^ 32
  digests : e.digests.toNat = (svcDigests id b).length % 2 ^ 32
  gas : e.gas.toNat = ((svcDigests id b).map (fun d => d.gas.toNat)).sum % 2 ^ 64
  imports : e.imports.toNat = ((svcDigests id b).map (fun d => d.imports.toNat)).sum % 2 ^ 32
  xts : e.xts.toNat = ((svcDigests id b).map (fun d => d.xts.toNat)).sum % 2 ^ 32
  xtOctets : e.xtOctets.toNat = ((svcDigests id b).map (fun d => d.xtOctets.toNat)).sum % 2 ^ 32
  exports : e.exports.toNat = ((svcDigests id b).map (fun d => d.exports.toNat)).sum % 2 ^ 32
  accDigests : e.accDigests.toNat = accDigests id reports % 2 ^ 32
  accGas : e.accGas.toNat = accGas id gs % 2 ^ 64

end Fastroll.Stats
