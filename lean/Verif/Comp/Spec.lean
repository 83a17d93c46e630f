import Verif.Comp.Model
import Verif.Wire.Spec
/-!
# The serialization of the state components in the Gray Paper

Appendix D: the values of `C(1)` to `C(16)` and of the entries of services, with the combinators of
`Verif.Wire.Spec`; and which values the Rust types can hold.
-/
namespace Fastroll.Comp.Paper
open Fastroll.Codec (paperFixed)
open Fastroll.Wire
open Fastroll.Wire.Spec (nat seq var opt Fits Increasing)

/-! `α`, `φ` -/

def PoolOk (D : Dims) (a : List (List Bytes)) : Prop :=
  a.length = D.wire.cores ∧ ∀ p ∈ a, p.length ≤ D.poolSize ∧ p.length < 2 ^ 64 ∧ ∀ h ∈ p, h.length = 32
def pool : List (List Bytes) → Bytes := seq (var id)

def QueueOk (D : Dims) (a : List (List Bytes)) : Prop :=
  a.length = D.wire.cores ∧ ∀ p ∈ a, p.length = D.queueSize ∧ ∀ h ∈ p, h.length = 32
def queue : List (List Bytes) → Bytes := seq (seq id)

/-! `β`, `θ` -/

structure EntryOk (e : Entry) : Prop where
  header : e.header.length = 32
  beefy : e.beefy.length = 32
  stateRoot : e.stateRoot.length = 32
  fit : Fits e.packages.length 64
  packages : ∀ p ∈ e.packages, p.1.length = 32 ∧ p.2.length = 32
def entry (e : Entry) : Bytes := e.header ++ e.beefy ++ e.stateRoot ++ var (fun p => p.1 ++ p.2) e.packages

structure HistoryOk (D : Dims) (h : History) : Prop where
  limit : h.entries.length ≤ D.historyLength
  size : h.entries.length < 2 ^ 64
  entries : ∀ e ∈ h.entries, EntryOk e
  beltFit : Fits h.belt.length 33
  belt : ∀ p ∈ h.belt, ∀ b, p = some b → b.length = 32
def history (h : History) : Bytes := var entry h.entries ++ var (opt id) h.belt

def OutputsOk (l : List (Nat × Bytes)) : Prop := Fits l.length 36 ∧ ∀ p ∈ l, p.1 < 2 ^ 32 ∧ p.2.length = 32
def outputs : List (Nat × Bytes) → Bytes := var fun p => paperFixed 4 p.1 ++ p.2

/-! `ι`, `κ`, `λ`, `η`, `τ` -/

structure KeyOk (k : VKey) : Prop where
  bandersnatch : k.bandersnatch.length = 32
  ed25519 : k.ed25519.length = 32
  bls : k.bls.length = 144
  metadata : k.metadata.length = 128
def key (k : VKey) : Bytes := k.bandersnatch ++ k.ed25519 ++ k.bls ++ k.metadata

def KeysOk (D : Dims) (l : List VKey) : Prop := l.length = D.wire.validators ∧ ∀ k ∈ l, KeyOk k
def keys : List VKey → Bytes := seq key

def EntropyOk (l : List Bytes) : Prop := l.length = 4 ∧ ∀ h ∈ l, h.length = 32
def entropy : List Bytes → Bytes := seq id

/-! `γ` -/

def SealersOk (D : Dims) : Sealers → Prop
  | .tickets l => l.length = D.wire.epoch ∧ ∀ t ∈ l, Wire.Spec.TicketOk t
  | .keys l => l.length = D.wire.epoch ∧ ∀ k ∈ l, k.length = 32

def sealers : Sealers → Bytes
  | .tickets l => 0 :: seq Wire.Spec.ticket l
  | .keys l => 1 :: seq id l

/-- An accumulator: at most an epoch's worth of tickets with different identifiers. -/
structure TicketsOk (D : Dims) (l : List Ticket) : Prop where
  limit : l.length ≤ D.wire.epoch
  fit : Fits l.length 33
  distinct : (l.map Ticket.id).Nodup
  each : ∀ t ∈ l, Wire.Spec.TicketOk t

structure SafroleOk (D : Dims) (s : Safrole) : Prop where
  pending : KeysOk D s.pending
  ringRoot : s.ringRoot.length = 144
  sealers : SealersOk D s.sealers
  tickets : TicketsOk D s.tickets

/-- The layout, for tickets in increasing order. -/
def safrole (s : Safrole) : Bytes :=
  keys s.pending ++ s.ringRoot ++ sealers s.sealers ++ var Wire.Spec.ticket s.tickets

/-! `ψ` -/

def HashesOk (l : List Bytes) : Prop := Fits l.length 32 ∧ ∀ h ∈ l, h.length = 32
structure DisputesOk (d : Disputes) : Prop where
  good : HashesOk d.good
  bad : HashesOk d.bad
  wonky : HashesOk d.wonky
  punished : HashesOk d.punished
def disputes (d : Disputes) : Bytes := var id d.good ++ var id d.bad ++ var id d.wonky ++ var id d.punished

/-! `ρ`, `ω`, `ξ` -/

def PendingOk (D : Dims) (l : List (Option (WorkReport × Nat))) : Prop :=
  l.length = D.wire.cores ∧ ∀ o ∈ l, ∀ p, o = some p → Wire.Spec.ReportOk D.wire p.1 ∧ p.2 < 2 ^ 32
def pending : List (Option (WorkReport × Nat)) → Bytes :=
  seq (opt fun p => Wire.Spec.report p.1 ++ paperFixed 4 p.2)

def SetOk (l : List Bytes) : Prop := l.length < 2 ^ 64 ∧ Increasing l ∧ ∀ h ∈ l, h.length = 32

def ReadyOk (D : Dims) (l : List (List (WorkReport × List Bytes))) : Prop :=
  l.length = D.wire.epoch ∧
  ∀ x ∈ l, Fits x.length D.reportSize ∧ ∀ p ∈ x, Wire.Spec.ReportOk D.wire p.1 ∧ SetOk p.2
def ready : List (List (WorkReport × List Bytes)) → Bytes :=
  seq (var fun p => Wire.Spec.report p.1 ++ var id p.2)

def DoneOk (D : Dims) (l : List (List Bytes)) : Prop := l.length = D.wire.epoch ∧ ∀ x ∈ l, SetOk x
def done : List (List Bytes) → Bytes := seq (var id)

/-! `χ` -/

structure PrivilegesOk (D : Dims) (p : Privileges) : Prop where
  manager : p.manager < 2 ^ 32
  count : p.assign.length = D.wire.cores
  assign : ∀ s ∈ p.assign, s < 2 ^ 32
  designate : p.designate < 2 ^ 32
  registrar : p.registrar < 2 ^ 32
  size : p.always.length < 2 ^ 64
  sorted : p.always.Pairwise fun a b => a.1 < b.1
  always : ∀ z ∈ p.always, z.1 < 2 ^ 32 ∧ z.2 < 2 ^ 64
def privileges (p : Privileges) : Bytes :=
  paperFixed 4 p.manager ++ seq (paperFixed 4) p.assign ++ paperFixed 4 p.designate ++ paperFixed 4 p.registrar ++
  var (fun z => nat z.1 ++ nat z.2) p.always

/-! `π` -/

structure ValStatsOk (v : ValStats) : Prop where
  blocks : v.blocks < 2 ^ 32
  tickets : v.tickets < 2 ^ 32
  preimages : v.preimages < 2 ^ 32
  octets : v.octets < 2 ^ 32
  guarantees : v.guarantees < 2 ^ 32
  assurances : v.assurances < 2 ^ 32
def valStats (v : ValStats) : Bytes :=
  paperFixed 4 v.blocks ++ paperFixed 4 v.tickets ++ paperFixed 4 v.preimages ++ paperFixed 4 v.octets ++
  paperFixed 4 v.guarantees ++ paperFixed 4 v.assurances

structure CoreStatsOk (c : CoreStats) : Prop where
  daSize : c.daSize < 2 ^ 32
  assurers : c.assurers < 2 ^ 16
  imports : c.imports < 2 ^ 16
  xts : c.xts < 2 ^ 16
  xtOctets : c.xtOctets < 2 ^ 32
  exports : c.exports < 2 ^ 16
  bundle : c.bundle < 2 ^ 32
  gas : c.gas < 2 ^ 64
def coreStats (c : CoreStats) : Bytes :=
  nat c.daSize ++ nat c.assurers ++ nat c.imports ++ nat c.xts ++ nat c.xtOctets ++ nat c.exports ++ nat c.bundle ++
  nat c.gas

structure SvcStatsOk (s : SvcStats) : Prop where
  preimages : s.preimages < 2 ^ 16
  preimageOctets : s.preimageOctets < 2 ^ 32
  digests : s.digests < 2 ^ 32
  refineGas : s.refineGas < 2 ^ 64
  imports : s.imports < 2 ^ 32
  xts : s.xts < 2 ^ 32
  xtOctets : s.xtOctets < 2 ^ 32
  exports : s.exports < 2 ^ 32
  accumulated : s.accumulated < 2 ^ 32
  accGas : s.accGas < 2 ^ 64
def svcStats (s : SvcStats) : Bytes :=
  nat s.preimages ++ nat s.preimageOctets ++ nat s.digests ++ nat s.refineGas ++ nat s.imports ++ nat s.xts ++
  nat s.xtOctets ++ nat s.exports ++ nat s.accumulated ++ nat s.accGas

structure StatisticsOk (D : Dims) (s : Statistics) : Prop where
  currCount : s.curr.length = D.wire.validators
  curr : ∀ v ∈ s.curr, ValStatsOk v
  prevCount : s.prev.length = D.wire.validators
  prev : ∀ v ∈ s.prev, ValStatsOk v
  coreCount : s.cores.length = D.wire.cores
  cores : ∀ c ∈ s.cores, CoreStatsOk c
  size : s.services.length < 2 ^ 64
  sorted : s.services.Pairwise fun a b => a.1 < b.1
  services : ∀ z ∈ s.services, z.1 < 2 ^ 32 ∧ SvcStatsOk z.2

/-- The layout, given the layout of the identifiers of services. -/
def statistics (sid : Nat → Bytes) (s : Statistics) : Bytes :=
  seq valStats s.curr ++ seq valStats s.prev ++ seq coreStats s.cores ++
  var (fun z => sid z.1 ++ svcStats z.2) s.services

/-! Accounts -/

structure MetadataOk (m : Metadata) : Prop where
  version : m.version < 2 ^ 8
  codeHash : m.codeHash.length = 32
  balance : m.balance < 2 ^ 64
  gasAcc : m.gasAcc < 2 ^ 64
  gasTransfer : m.gasTransfer < 2 ^ 64
  octets : m.octets < 2 ^ 64
  gratis : m.gratis < 2 ^ 64
  items : m.items < 2 ^ 32
  created : m.created < 2 ^ 32
  accumulated : m.accumulated < 2 ^ 32
  parent : m.parent < 2 ^ 32
def metadata (m : Metadata) : Bytes :=
  nat m.version ++ m.codeHash ++ paperFixed 8 m.balance ++ paperFixed 8 m.gasAcc ++ paperFixed 8 m.gasTransfer ++
  paperFixed 8 m.octets ++ paperFixed 8 m.gratis ++ paperFixed 4 m.items ++ paperFixed 4 m.created ++
  paperFixed 4 m.accumulated ++ paperFixed 4 m.parent

def LookupsOk (l : List Nat) : Prop := l.length ≤ 3 ∧ ∀ t ∈ l, t < 2 ^ 32
def lookups : List Nat → Bytes := var (paperFixed 4)

/-! `σ` -/

structure SigmaOk (D : Dims) (s : Sigma) : Prop where
  alpha : PoolOk D s.alpha
  phi : QueueOk D s.phi
  beta : HistoryOk D s.beta
  gamma : SafroleOk D s.gamma
  psi : DisputesOk s.psi
  eta : EntropyOk s.eta
  iota : KeysOk D s.iota
  kappa : KeysOk D s.kappa
  lam : KeysOk D s.lam
  rho : PendingOk D s.rho
  tau : s.tau < 2 ^ 32
  chi : PrivilegesOk D s.chi
  pi : StatisticsOk D s.pi
  omega : ReadyOk D s.omega
  xi : DoneOk D s.xi
  theta : OutputsOk s.theta

/-- Equal but for the order in which the heap of tickets is laid out in memory. -/
structure Same (s s' : Sigma) : Prop where
  tickets : s'.gamma.tickets.Perm s.gamma.tickets
  rest : { s' with gamma := { s'.gamma with tickets := s.gamma.tickets } } = s

end Fastroll.Comp.Paper
