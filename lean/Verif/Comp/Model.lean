import Verif.Wire.Model
/-!
# Model of the codecs of the state components

Every component of the state is written to the state trie through `JamEncode` and read back from it through
`JamDecode` (`/repo/state/src/manager.rs` lines 911, 948; what follows the value is ignored there). The codecs of
`/repo/state/src/types` are transcribed field by field, on top of `Verif.Codec.Model` and `Verif.Wire.Model`.

* Maps and sets are their sorted lists, hashes and keys are octet strings of fixed length.
* A ticket accumulator is the list of the tickets in the binary heap, in some order.
-/
namespace Fastroll.Comp
open Fastroll.Codec
open Fastroll.Wire

/-- Array lengths and bounds of `/repo/common/src/constants`. -/
structure Dims where
  wire : Params
  poolSize : Nat
  queueSize : Nat
  historyLength : Nat
  /-- `size_of::<(WorkReport, BTreeSet<WorkPackageHash>)>()` -/
  reportSize : Nat

def natLt (a b : Nat) : Bool := decide (a < b)

/-! ## `authorizer.rs` -/

/-- `AuthPool`, lines 17-24: `FixedVec` of `LimitedVec` of hashes. -/
def poolEnc : Enc (List (List Bytes)) := seqEnc (vecEnc arrEnc)
def poolDec (D : Dims) : Dec (List (List Bytes)) := seqDec (limitedDec D.poolSize (arrDec 32)) D.wire.cores

/-- `AuthQueue`, lines 50-57: `FixedVec` of `FixedVec`. -/
def queueEnc : Enc (List (List Bytes)) := seqEnc (seqEnc arrEnc)
def queueDec (D : Dims) : Dec (List (List Bytes)) := seqDec (seqDec (arrDec 32) D.queueSize) D.wire.cores

/-! ## `history.rs` -/

/-- `BlockHistoryEntry`, lines 91-102; reported packages are pairs of hashes (work_report.rs lines 108-114). -/
structure Entry where
  header : Bytes
  beefy : Bytes
  stateRoot : Bytes
  packages : List (Bytes × Bytes)
  deriving DecidableEq

/-- Lines 131-137. -/
def Entry.enc : Enc Entry := fun e =>
  arrEnc e.header +++ arrEnc e.beefy +++ arrEnc e.stateRoot +++ vecEnc (pairEnc arrEnc arrEnc) e.packages

/-- Lines 140-149. -/
def Entry.dec : Dec Entry :=
  (arrDec 32).bind fun h => (arrDec 32).bind fun b => (arrDec 32).bind fun s =>
  (vecDec 64 (pairDec (arrDec 32) (arrDec 32))).bind fun p =>
  .pure { header := h, beefy := b, stateRoot := s, packages := p }

/-- `BlockHistory`, lines 24-30. -/
structure History where
  entries : List Entry
  belt : List (Option Bytes)
  deriving DecidableEq

/-- Derived; the belt is its vector of peaks (merkle mmr.rs lines 40-60). -/
def History.enc : Enc History := fun h => vecEnc Entry.enc h.entries +++ vecEnc (optEnc arrEnc) h.belt
def History.dec (D : Dims) : Dec History :=
  (limitedDec D.historyLength Entry.dec).bind fun e => (vecDec 33 (optDec (arrDec 32))).bind fun b =>
  .pure { entries := e, belt := b }

/-- `AccumulationOutputPair`, pvm-types invoke_results.rs lines 30-52. -/
def outputEnc : Enc (Nat × Bytes) := pairEnc (fixedEncode 4) arrEnc
def outputDec : Dec (Nat × Bytes) := pairDec (fixedDecode 32 4) (arrDec 32)

/-- `LastAccumulateOutputs`, lines 165-170. -/
def outputsEnc : Enc (List (Nat × Bytes)) := vecEnc outputEnc
def outputsDec : Dec (List (Nat × Bytes)) := vecDec 36 outputDec

/-! ## `validators.rs`, `crypto/src/types/validator_keys.rs` -/

/-- `ValidatorKey`, lines 57-66; derived. -/
structure VKey where
  bandersnatch : Bytes
  ed25519 : Bytes
  bls : Bytes
  metadata : Bytes
  deriving DecidableEq

def VKey.enc : Enc VKey := fun k =>
  arrEnc k.bandersnatch +++ arrEnc k.ed25519 +++ arrEnc k.bls +++ arrEnc k.metadata
def VKey.dec : Dec VKey :=
  (arrDec 32).bind fun b => (arrDec 32).bind fun e => (arrDec 144).bind fun l => (arrDec 128).bind fun m =>
  .pure { bandersnatch := b, ed25519 := e, bls := l, metadata := m }

/-- `ValidatorKeySet`, `StagingSet`, `ActiveSet`, `PastSet`. -/
def keysEnc : Enc (List VKey) := seqEnc VKey.enc
def keysDec (D : Dims) : Dec (List VKey) := seqDec VKey.dec D.wire.validators

/-! ## `safrole.rs` -/

/-- `SlotSealers`, lines 125-129. -/
inductive Sealers where
  | tickets (l : List Ticket)
  | keys (l : List Bytes)
  deriving DecidableEq

/-- Lines 158-171. -/
def Sealers.enc : Enc Sealers
  | .tickets l => natEnc 0 +++ seqEnc Ticket.enc l
  | .keys l => natEnc 1 +++ seqEnc arrEnc l

def Sealers.decTag (E t : Nat) : Dec Sealers :=
  if t = 0 then (seqDec Ticket.dec E).bind fun l => .pure (.tickets l)
  else if t = 1 then (seqDec (arrDec 32) E).bind fun l => .pure (.keys l)
  else .fail .conversion

/-- Lines 174-206. -/
def Sealers.dec (D : Dims) : Dec Sealers := (intDecode 8).bind (Sealers.decTag D.wire.epoch)

/-- Order of tickets, by identifier (common/src/types/ticket.rs lines 33-37). -/
def ticketLt (a b : Ticket) : Bool := bytesLt a.id b.id

def insertTicket (t : Ticket) : List Ticket → List Ticket
  | [] => [t]
  | u :: us => bif ticketLt u t then u :: insertTicket t us else t :: u :: us

/-- `into_sorted_vec` of the heap. (The order of tickets with one identifier is not determined; see the
hypotheses of the theorems.) -/
def sortTickets : List Ticket → List Ticket
  | [] => []
  | t :: ts => insertTicket t (sortTickets ts)

/-- `peek`: a largest ticket. -/
def maxTicket : List Ticket → Option Ticket
  | [] => none
  | t :: ts =>
    match maxTicket ts with
    | none => some t
    | some m => bif ticketLt m t then some t else some m

/-- `add`, lines 331-344. -/
def addTicket (E : Nat) (heap : List Ticket) (t : Ticket) : List Ticket :=
  if heap.length < E then heap ++ [t]
  else
    match maxTicket heap with
    | none => heap
    | some m => bif ticketLt t m then heap.erase m ++ [t] else heap

/-- `TicketAccumulator::encode_to`, lines 372-374. -/
def accEnc : Enc (List Ticket) := fun l => vecEnc Ticket.enc (sortTickets l)

/-- Lines 377-391. `size_of::<Ticket>()` is 33. -/
def accDec (E : Nat) : Dec (List Ticket) :=
  (vecDec 33 Ticket.dec).bind fun l => .pure (l.foldl (addTicket E) [])

/-- `SafroleState`, lines 43-56. -/
structure Safrole where
  pending : List VKey
  ringRoot : Bytes
  sealers : Sealers
  tickets : List Ticket
  deriving DecidableEq

def Safrole.enc : Enc Safrole := fun s =>
  keysEnc s.pending +++ arrEnc s.ringRoot +++ Sealers.enc s.sealers +++ accEnc s.tickets

/-- Lines 90-110. -/
def Safrole.dec (D : Dims) : Dec Safrole :=
  (keysDec D).bind fun p => (arrDec 144).bind fun r => (Sealers.dec D).bind fun s => (accDec D.wire.epoch).bind fun t =>
  .pure { pending := p, ringRoot := r, sealers := s, tickets := t }

/-! ## `disputes.rs`, `entropy.rs`, `timeslot.rs` -/

/-- `DisputesState`, lines 13-23; derived. -/
structure Disputes where
  good : List Bytes
  bad : List Bytes
  wonky : List Bytes
  punished : List Bytes
  deriving DecidableEq

def Disputes.enc : Enc Disputes := fun d =>
  vecEnc arrEnc d.good +++ vecEnc arrEnc d.bad +++ vecEnc arrEnc d.wonky +++ vecEnc arrEnc d.punished
def Disputes.dec : Dec Disputes :=
  (vecDec 32 (arrDec 32)).bind fun g => (vecDec 32 (arrDec 32)).bind fun b => (vecDec 32 (arrDec 32)).bind fun w =>
  (vecDec 32 (arrDec 32)).bind fun p => .pure { good := g, bad := b, wonky := w, punished := p }

/-- `EpochEntropy`, lines 12-13: an array of four hashes. -/
def entropyEnc : Enc (List Bytes) := seqEnc arrEnc
def entropyDec : Dec (List Bytes) := seqDec (arrDec 32) 4

/-- `Timeslot`, lines 16-33. -/
def slotEnc : Enc Nat := fixedEncode 4
def slotDec : Dec Nat := fixedDecode 32 4

/-! ## `reports.rs`, `accumulate.rs` -/

/-- `PendingReport`, lines 126-145. -/
def pendingOneEnc : Enc (WorkReport × Nat) := pairEnc WorkReport.enc slotEnc
def pendingOneDec (D : Dims) : Dec (WorkReport × Nat) := pairDec (WorkReport.dec D.wire) slotDec

/-- `PendingReports`, lines 23-29. -/
def pendingEnc : Enc (List (Option (WorkReport × Nat))) := seqEnc (optEnc pendingOneEnc)
def pendingDec (D : Dims) : Dec (List (Option (WorkReport × Nat))) := seqDec (optDec (pendingOneDec D)) D.wire.cores

/-- `AccumulateQueue`, lines 14-27. -/
def readyEnc : Enc (List (List (WorkReport × List Bytes))) := seqEnc (vecEnc (pairEnc WorkReport.enc (setEnc arrEnc)))
def readyDec (D : Dims) : Dec (List (List (WorkReport × List Bytes))) :=
  seqDec (vecDec D.reportSize (pairDec (WorkReport.dec D.wire) (setDec bytesLt (arrDec 32)))) D.wire.epoch

/-- `AccumulateHistory`, lines 16 and 103-109. -/
def doneEnc : Enc (List (List Bytes)) := seqEnc (setEnc arrEnc)
def doneDec (D : Dims) : Dec (List (List Bytes)) := seqDec (setDec bytesLt (arrDec 32)) D.wire.epoch

/-! ## `privileges.rs` -/

structure Privileges where
  manager : Nat
  assign : List Nat
  designate : Nat
  registrar : Nat
  always : List (Nat × Nat)
  deriving DecidableEq

/-- Lines 60-69. -/
def Privileges.enc : Enc Privileges := fun p =>
  fixedEncode 4 p.manager +++ seqEnc (fixedEncode 4) p.assign +++ fixedEncode 4 p.designate +++
  fixedEncode 4 p.registrar +++ mapEnc natEnc natEnc p.always

/-- Lines 72-100. -/
def Privileges.dec (D : Dims) : Dec Privileges :=
  (fixedDecode 32 4).bind fun m => (seqDec (fixedDecode 32 4) D.wire.cores).bind fun a =>
  (fixedDecode 32 4).bind fun d => (fixedDecode 32 4).bind fun r =>
  (mapDec natLt (intDecode 32) (intDecode 64)).bind fun z =>
  .pure { manager := m, assign := a, designate := d, registrar := r, always := z }

/-! ## `statistics.rs` -/

structure ValStats where
  blocks : Nat
  tickets : Nat
  preimages : Nat
  octets : Nat
  guarantees : Nat
  assurances : Nat
  deriving DecidableEq

/-- Lines 81-89. -/
def ValStats.enc : Enc ValStats := fun v =>
  fixedEncode 4 v.blocks +++ fixedEncode 4 v.tickets +++ fixedEncode 4 v.preimages +++ fixedEncode 4 v.octets +++
  fixedEncode 4 v.guarantees +++ fixedEncode 4 v.assurances

/-- Lines 92-106. -/
def ValStats.dec : Dec ValStats :=
  (fixedDecode 32 4).bind fun b => (fixedDecode 32 4).bind fun t => (fixedDecode 32 4).bind fun p =>
  (fixedDecode 32 4).bind fun o => (fixedDecode 32 4).bind fun g => (fixedDecode 32 4).bind fun a =>
  .pure { blocks := b, tickets := t, preimages := p, octets := o, guarantees := g, assurances := a }

/-- `CoreStatsEntry`, lines 211-229; derived. -/
structure CoreStats where
  daSize : Nat
  assurers : Nat
  imports : Nat
  xts : Nat
  xtOctets : Nat
  exports : Nat
  bundle : Nat
  gas : Nat
  deriving DecidableEq

def CoreStats.enc : Enc CoreStats := fun c =>
  natEnc c.daSize +++ natEnc c.assurers +++ natEnc c.imports +++ natEnc c.xts +++ natEnc c.xtOctets +++
  natEnc c.exports +++ natEnc c.bundle +++ natEnc c.gas
def CoreStats.dec : Dec CoreStats :=
  (intDecode 32).bind fun d => (intDecode 16).bind fun p => (intDecode 16).bind fun i => (intDecode 16).bind fun x =>
  (intDecode 32).bind fun z => (intDecode 16).bind fun e => (intDecode 32).bind fun l => (intDecode 64).bind fun u =>
  .pure { daSize := d, assurers := p, imports := i, xts := x, xtOctets := z, exports := e, bundle := l, gas := u }

/-- `ServiceStatsEntry`, lines 278-300; derived. -/
structure SvcStats where
  preimages : Nat
  preimageOctets : Nat
  digests : Nat
  refineGas : Nat
  imports : Nat
  xts : Nat
  xtOctets : Nat
  exports : Nat
  accumulated : Nat
  accGas : Nat
  deriving DecidableEq

def SvcStats.enc : Enc SvcStats := fun s =>
  natEnc s.preimages +++ natEnc s.preimageOctets +++ natEnc s.digests +++ natEnc s.refineGas +++ natEnc s.imports +++
  natEnc s.xts +++ natEnc s.xtOctets +++ natEnc s.exports +++ natEnc s.accumulated +++ natEnc s.accGas
def SvcStats.dec : Dec SvcStats :=
  (intDecode 16).bind fun p => (intDecode 32).bind fun o => (intDecode 32).bind fun r => (intDecode 64).bind fun g =>
  (intDecode 32).bind fun i => (intDecode 32).bind fun x => (intDecode 32).bind fun z => (intDecode 32).bind fun e =>
  (intDecode 32).bind fun a => (intDecode 64).bind fun u =>
  .pure { preimages := p, preimageOctets := o, digests := r, refineGas := g, imports := i, xts := x, xtOctets := z, exports := e, accumulated := a, accGas := u }

/-- `ServiceStats`, lines 359-402: keys of four octets, in order; entries are inserted into a `BTreeMap`. -/
def svcStatsEnc : Enc (List (Nat × SvcStats)) := mapEnc (fixedEncode 4) SvcStats.enc
def svcStatsDec : Dec (List (Nat × SvcStats)) := mapDec natLt (fixedDecode 32 4) SvcStats.dec

/-- `OnChainStatistics` with its `ValidatorStats`, lines 23-30 and 166-170; derived. -/
structure Statistics where
  curr : List ValStats
  prev : List ValStats
  cores : List CoreStats
  services : List (Nat × SvcStats)
  deriving DecidableEq

def Statistics.enc : Enc Statistics := fun s =>
  seqEnc ValStats.enc s.curr +++ seqEnc ValStats.enc s.prev +++ seqEnc CoreStats.enc s.cores +++ svcStatsEnc s.services
def Statistics.dec (D : Dims) : Dec Statistics :=
  (seqDec ValStats.dec D.wire.validators).bind fun c => (seqDec ValStats.dec D.wire.validators).bind fun p =>
  (seqDec CoreStats.dec D.wire.cores).bind fun k => svcStatsDec.bind fun s =>
  .pure { curr := c, prev := p, cores := k, services := s }

/-! ## `services.rs` -/

/-- `AccountMetadata`, lines 115-139. -/
structure Metadata where
  version : Nat
  codeHash : Bytes
  balance : Nat
  gasAcc : Nat
  gasTransfer : Nat
  octets : Nat
  gratis : Nat
  items : Nat
  created : Nat
  accumulated : Nat
  parent : Nat
  deriving DecidableEq

/-- Lines 185-198; the version goes through the integer codec. -/
def Metadata.enc : Enc Metadata := fun m =>
  natEnc m.version +++ arrEnc m.codeHash +++ fixedEncode 8 m.balance +++ fixedEncode 8 m.gasAcc +++
  fixedEncode 8 m.gasTransfer +++ fixedEncode 8 m.octets +++ fixedEncode 8 m.gratis +++ fixedEncode 4 m.items +++
  fixedEncode 4 m.created +++ fixedEncode 4 m.accumulated +++ fixedEncode 4 m.parent

/-- Lines 201-220. -/
def Metadata.dec : Dec Metadata :=
  (intDecode 8).bind fun v => (arrDec 32).bind fun c => (fixedDecode 64 8).bind fun b => (fixedDecode 64 8).bind fun g =>
  (fixedDecode 64 8).bind fun m => (fixedDecode 64 8).bind fun o => (fixedDecode 64 8).bind fun f =>
  (fixedDecode 32 4).bind fun i => (fixedDecode 32 4).bind fun r => (fixedDecode 32 4).bind fun a =>
  (fixedDecode 32 4).bind fun p =>
  .pure { version := v, codeHash := c, balance := b, gasAcc := g, gasTransfer := m, octets := o, gratis := f, items := i, created := r, accumulated := a, parent := p }

/-- `AccountStorageEntry` and `AccountPreimagesEntry`, lines 389-409 and 465-485: the octets themselves; decoding
takes all there is. -/
def blobEnc : Enc Bytes := fun b => .ok b
def blobDec : Dec Bytes := fun inp => readBytes inp.length inp

/-- `AccountLookupsEntry`, lines 506-512. -/
def lookupsEnc : Enc (List Nat) := vecEnc slotEnc

def limit3 (l : List Nat) : Dec (List Nat) := if l.length ≤ 3 then .pure l else .fail .invalidSize

/-- Lines 515-535: the capacity is reserved before the length is compared with 3. -/
def lookupsDec : Dec (List Nat) :=
  (intDecode 64).bind fun n => (reserve 4 n).bind fun _ => (seqDec slotDec n).bind limit3

/-! ## The sixteen components -/

/-- The components with a fixed key, by the letters of the Gray Paper. -/
structure Sigma where
  alpha : List (List Bytes)
  phi : List (List Bytes)
  beta : History
  gamma : Safrole
  psi : Disputes
  eta : List Bytes
  iota : List VKey
  kappa : List VKey
  lam : List VKey
  rho : List (Option (WorkReport × Nat))
  tau : Nat
  chi : Privileges
  pi : Statistics
  omega : List (List (WorkReport × List Bytes))
  xi : List (List Bytes)
  theta : List (Nat × Bytes)
  deriving DecidableEq

/-- What is stored under the key `i`, `StateKeyConstant` in state_utils.rs lines 202-220. -/
def save (s : Sigma) (i : Nat) : Except Err Bytes :=
  match i with
  | 1 => poolEnc s.alpha
  | 2 => queueEnc s.phi
  | 3 => History.enc s.beta
  | 4 => Safrole.enc s.gamma
  | 5 => Disputes.enc s.psi
  | 6 => entropyEnc s.eta
  | 7 => keysEnc s.iota
  | 8 => keysEnc s.kappa
  | 9 => keysEnc s.lam
  | 10 => pendingEnc s.rho
  | 11 => slotEnc s.tau
  | 12 => Privileges.enc s.chi
  | 13 => Statistics.enc s.pi
  | 14 => readyEnc s.omega
  | 15 => doneEnc s.xi
  | 16 => outputsEnc s.theta
  | _ => .error .encoding

/-- `T::decode(&mut state_data.as_slice())`, manager.rs lines 911 and 948: the rest is ignored. -/
def reload {α : Type} (d : Dec α) (inp : Bytes) : Except Err α :=
  match d inp with
  | .ok (a, _) => .ok a
  | .error e => .error e

def andThen {α β : Type} (x : Except Err α) (f : α → Except Err β) : Except Err β :=
  match x with
  | .ok a => f a
  | .error e => .error e

/-- All components read back from their entries. -/
def load (D : Dims) (get : Nat → Bytes) : Except Err Sigma :=
  andThen (reload (poolDec D) (get 1)) fun a => andThen (reload (queueDec D) (get 2)) fun f =>
  andThen (reload (History.dec D) (get 3)) fun b => andThen (reload (Safrole.dec D) (get 4)) fun g =>
  andThen (reload Disputes.dec (get 5)) fun p => andThen (reload entropyDec (get 6)) fun e =>
  andThen (reload (keysDec D) (get 7)) fun i => andThen (reload (keysDec D) (get 8)) fun k =>
  andThen (reload (keysDec D) (get 9)) fun l => andThen (reload (pendingDec D) (get 10)) fun r =>
  andThen (reload slotDec (get 11)) fun t => andThen (reload (Privileges.dec D) (get 12)) fun c =>
  andThen (reload (Statistics.dec D) (get 13)) fun s => andThen (reload (readyDec D) (get 14)) fun o =>
  andThen (reload (doneDec D) (get 15)) fun x => andThen (reload outputsDec (get 16)) fun h =>
  .ok ⟨a, f, b, g, p, e, i, k, l, r, t, c, s, o, x, h⟩

end Fastroll.Comp
