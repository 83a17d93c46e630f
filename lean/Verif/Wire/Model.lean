import Verif.Codec.Model
/-!
# Model of the codecs of blocks, extrinsics and work data

Every type of `/repo` that travels between nodes or inside a block has a hand-written or
derived `JamEncode`/`JamDecode`. The encoders and decoders are transcribed field by field,
each from its own `impl`, on top of the primitives of `Verif.Codec.Model`. Byte arrays and
octet strings are byte lists; hashes, keys and signatures are byte arrays of fixed length.
-/
namespace Fastroll.Wire
open Fastroll.Codec

abbrev Bytes := List UInt8

/-- Constants of `/repo/common/src/constants.rs` and `chain_spec.rs` that are array lengths
or bounds of wire types. -/
structure Params where
  validators : Nat
  superMajority : Nat
  cores : Nat
  epoch : Nat
  maxItems : Nat

/-- Two `encode_to(dest)?` in a row: the bytes of the first, then those of the second. -/
def cat (a b : Except Err Bytes) : Except Err Bytes :=
  match a with
  | .error x => .error x
  | .ok x => match b with
    | .error y => .error y
    | .ok y => .ok (x ++ y)

infixr:65 " +++ " => cat

/-! ## Bytes -/

/-- `JamInput::read` into a buffer of `n` bytes, `codec/fr-codec/src/lib.rs` lines 42-74. -/
def readBytes (n : Nat) : Dec Bytes := fun inp =>
  if inp.length < n then .error .input else .ok (inp.take n, inp.drop n)

/-- `ByteArray<N>` encode, `common/src/types/mod.rs` lines 258-267, and the newtypes over it
(hashes, `crypto/src/types/public_keys.rs`, `signatures.rs`). -/
def arrEnc : Enc Bytes := fun b => .ok b

/-- `ByteArray<N>` decode, lines 269-280. -/
def arrDec (n : Nat) : Dec Bytes := readBytes n

/-- `ByteSequence` (`Octets`) encode, lines 147-157. -/
def octetsEnc : Enc Bytes := fun b => natEnc b.length +++ .ok b

/-- `ByteSequence` (`Octets`) decode, lines 160-172: the buffer is `vec![0u8; len]`. -/
def octetsDec : Dec Bytes :=
  (intDecode 64).bind fun n => (reserve 1 n).bind fun _ => readBytes n

/-- `Vec<u8>` encode through the generic `Vec<T>`, `codec/fr-codec/src/lib.rs` lines
324-334: every element goes through the variable-length integer encoding of `u8`. -/
def vecU8Enc : Enc Bytes := vecEnc (fun b => natEnc b.toNat)

/-- `Vec<u8>` decode through the generic `Vec<T>`, lines 336-345. -/
def vecU8Dec : Dec Bytes :=
  vecDec 1 ((intDecode 8).bind fun n => .pure (UInt8.ofNat n))

/-- Derived order of byte arrays: the first differing byte decides. -/
def bytesLt : Bytes → Bytes → Bool
  | _, [] => false
  | [], _ :: _ => true
  | a :: as, b :: bs => if a < b then true else if b < a then false else bytesLt as bs

/-- `BTreeSet` encode, lines 483-492: length, then the elements in order. A set is its
sorted list. -/
def setEnc {κ : Type} (e : Enc κ) : Enc (List κ) := vecEnc e

/-- `BTreeSet::insert` on the sorted list. -/
def setInsert {κ : Type} (lt : κ → κ → Bool) (k : κ) : List κ → List κ
  | [] => [k]
  | k' :: m => if lt k k' then k :: k' :: m else if lt k' k then k' :: setInsert lt k m else k' :: m

/-- Loop of `BTreeSet` decode, lines 498-500. -/
def setDecLoop {κ : Type} (lt : κ → κ → Bool) (d : Dec κ) : Nat → List κ → Dec (List κ)
  | 0, m => .pure m
  | n + 1, m => d.bind fun k => setDecLoop lt d n (setInsert lt k m)

/-- `BTreeSet` decode, lines 494-503. -/
def setDec {κ : Type} (lt : κ → κ → Bool) (d : Dec κ) : Dec (List κ) :=
  (intDecode 64).bind fun n => setDecLoop lt d n []

/-! ## Work reports (`common/src/types/workloads/`) -/

/-- `RefinementContext`, `common.rs` lines 10-24. -/
structure RefineCtx where
  anchor : Bytes
  stateRoot : Bytes
  beefyRoot : Bytes
  lookupAnchor : Bytes
  lookupSlot : Nat
  prerequisites : List Bytes
deriving DecidableEq, Repr

/-- `common.rs` lines 56-64. -/
def RefineCtx.enc : Enc RefineCtx := fun c =>
  arrEnc c.anchor +++ arrEnc c.stateRoot +++ arrEnc c.beefyRoot +++ arrEnc c.lookupAnchor +++
  fixedEncode 4 c.lookupSlot +++ setEnc arrEnc c.prerequisites

/-- `common.rs` lines 67-81. -/
def RefineCtx.dec : Dec RefineCtx :=
  (arrDec 32).bind fun a => (arrDec 32).bind fun s => (arrDec 32).bind fun b =>
  (arrDec 32).bind fun l => (fixedDecode 32 4).bind fun t => (setDec bytesLt (arrDec 32)).bind fun p =>
  .pure { anchor := a, stateRoot := s, beefyRoot := b, lookupAnchor := l, lookupSlot := t, prerequisites := p }

/-- `AvailSpecs`, `work_report.rs` lines 14-26. -/
structure AvailSpecs where
  packageHash : Bytes
  bundleLength : Nat
  erasureRoot : Bytes
  segmentRoot : Bytes
  segmentCount : Nat
deriving DecidableEq, Repr

/-- Lines 52-59. -/
def AvailSpecs.enc : Enc AvailSpecs := fun s =>
  arrEnc s.packageHash +++ fixedEncode 4 s.bundleLength +++ arrEnc s.erasureRoot +++
  arrEnc s.segmentRoot +++ fixedEncode 2 s.segmentCount

/-- Lines 62-72. -/
def AvailSpecs.dec : Dec AvailSpecs :=
  (arrDec 32).bind fun p => (fixedDecode 32 4).bind fun l => (arrDec 32).bind fun u =>
  (arrDec 32).bind fun e => (fixedDecode 16 2).bind fun n =>
  .pure { packageHash := p, bundleLength := l, erasureRoot := u, segmentRoot := e, segmentCount := n }

/-- `WorkExecutionError`, lines 123-137. -/
inductive WorkError where
  | outOfGas | panic | badExports | oversize | bad | big
deriving DecidableEq, Repr

/-- Lines 144-153. -/
def WorkError.enc : Enc WorkError
  | .outOfGas => natEnc 1
  | .panic => natEnc 2
  | .badExports => natEnc 3
  | .oversize => natEnc 4
  | .bad => natEnc 5
  | .big => natEnc 6

/-- `WorkExecutionResult`, lines 178-182. -/
inductive WorkResult where
  | output (b : Bytes)
  | error (e : WorkError)
deriving DecidableEq, Repr

/-- Lines 207-216. -/
def WorkResult.enc : Enc WorkResult
  | .output b => natEnc 0 +++ octetsEnc b
  | .error e => WorkError.enc e

/-- The `match` of lines 221-235 on the discriminator. -/
def WorkResult.decTag (t : Nat) : Dec WorkResult :=
  if t = 0 then octetsDec.bind fun b => .pure (.output b)
  else if t = 1 then .pure (.error .outOfGas)
  else if t = 2 then .pure (.error .panic)
  else if t = 3 then .pure (.error .badExports)
  else if t = 4 then .pure (.error .oversize)
  else if t = 5 then .pure (.error .bad)
  else if t = 6 then .pure (.error .big)
  else .fail .input

/-- Lines 219-237. -/
def WorkResult.dec : Dec WorkResult := (intDecode 8).bind WorkResult.decTag

/-- `RefineStats`, lines 273-285; the codec is derived. -/
structure RefineStats where
  gasUsed : Nat
  imports : Nat
  xtCount : Nat
  xtOctets : Nat
  exports : Nat
deriving DecidableEq, Repr

def RefineStats.enc : Enc RefineStats := fun s =>
  natEnc s.gasUsed +++ natEnc s.imports +++ natEnc s.xtCount +++ natEnc s.xtOctets +++ natEnc s.exports

def RefineStats.dec : Dec RefineStats :=
  (intDecode 64).bind fun u => (intDecode 16).bind fun i => (intDecode 16).bind fun x =>
  (intDecode 32).bind fun z => (intDecode 16).bind fun e =>
  .pure { gasUsed := u, imports := i, xtCount := x, xtOctets := z, exports := e }

/-- `WorkDigest`, lines 299-313. -/
structure WorkDigest where
  service : Nat
  codeHash : Bytes
  payloadHash : Bytes
  accGas : Nat
  result : WorkResult
  stats : RefineStats
deriving DecidableEq, Repr

/-- Lines 341-349. -/
def WorkDigest.enc : Enc WorkDigest := fun d =>
  fixedEncode 4 d.service +++ arrEnc d.codeHash +++ arrEnc d.payloadHash +++ fixedEncode 8 d.accGas +++
  WorkResult.enc d.result +++ RefineStats.enc d.stats

/-- Lines 352-366. -/
def WorkDigest.dec : Dec WorkDigest :=
  (fixedDecode 32 4).bind fun s => (arrDec 32).bind fun c => (arrDec 32).bind fun y =>
  (fixedDecode 64 8).bind fun g => WorkResult.dec.bind fun r => RefineStats.dec.bind fun st =>
  .pure { service := s, codeHash := c, payloadHash := y, accGas := g, result := r, stats := st }

/-- `WorkReport`, lines 383-401; the segment-root lookup table is its sorted
association list (lines 74-77). -/
structure WorkReport where
  specs : AvailSpecs
  ctx : RefineCtx
  core : Nat
  authorizer : Bytes
  authGas : Nat
  trace : Bytes
  lookup : List (Bytes × Bytes)
  digests : List WorkDigest
deriving DecidableEq, Repr

/-- Lines 436-446. -/
def WorkReport.enc : Enc WorkReport := fun r =>
  AvailSpecs.enc r.specs +++ RefineCtx.enc r.ctx +++ natEnc r.core +++ arrEnc r.authorizer +++
  natEnc r.authGas +++ octetsEnc r.trace +++ mapEnc arrEnc arrEnc r.lookup +++
  vecEnc WorkDigest.enc r.digests

/-- Lines 449-465. -/
def WorkReport.dec (P : Params) : Dec WorkReport :=
  AvailSpecs.dec.bind fun s => RefineCtx.dec.bind fun x => (intDecode 16).bind fun c =>
  (arrDec 32).bind fun a => (intDecode 64).bind fun g => octetsDec.bind fun t =>
  (mapDec bytesLt (arrDec 32) (arrDec 32)).bind fun l =>
  (limitedDec P.maxItems WorkDigest.dec).bind fun d =>
  .pure { specs := s, ctx := x, core := c, authorizer := a, authGas := g, trace := t, lookup := l, digests := d }

/-! ## Work packages (`common/src/types/workloads/work_package.rs`) -/

/-- `WorkPackageId`, lines 11-17. -/
inductive PackageId where
  | segmentRoot (h : Bytes)
  | packageHash (h : Bytes)
deriving DecidableEq, Repr

/-- `ImportInfo`, lines 19-25. -/
structure ImportInfo where
  id : PackageId
  index : Nat
deriving DecidableEq, Repr

/-- The `match` of lines 33-36. `self.item_index + (1 << 15)` is on `u16` and wraps in a
release build. -/
def ImportInfo.parts (i : ImportInfo) : Bytes × Nat :=
  match i.id with
  | .segmentRoot h => (h, i.index)
  | .packageHash h => (h, (i.index + 2 ^ 15) % 2 ^ 16)

/-- Lines 32-40. -/
def ImportInfo.enc : Enc ImportInfo := fun i => arrEnc i.parts.1 +++ fixedEncode 2 i.parts.2

/-- Lines 43-68. -/
def ImportInfo.dec : Dec ImportInfo :=
  (arrDec 32).bind fun h => (fixedDecode 16 2).bind fun n =>
  if n ≥ 2 ^ 15 then .pure { id := .packageHash h, index := n - 2 ^ 15 }
  else .pure { id := .segmentRoot h, index := n }

/-- `ExtrinsicInfo`, lines 70-76. -/
structure XtInfo where
  hash : Bytes
  length : Nat
deriving DecidableEq, Repr

/-- Lines 83-87. -/
def XtInfo.enc : Enc XtInfo := fun x => arrEnc x.hash +++ fixedEncode 4 x.length

/-- Lines 90-100. -/
def XtInfo.dec : Dec XtInfo :=
  (arrDec 32).bind fun h => (fixedDecode 32 4).bind fun l => .pure { hash := h, length := l }

/-- `WorkItem`, lines 102-122. -/
structure WorkItem where
  service : Nat
  codeHash : Bytes
  refineGas : Nat
  accGas : Nat
  exports : Nat
  payload : Bytes
  imports : List ImportInfo
  xts : List XtInfo
deriving DecidableEq, Repr

/-- Lines 135-145. -/
def WorkItem.enc : Enc WorkItem := fun w =>
  fixedEncode 4 w.service +++ arrEnc w.codeHash +++ fixedEncode 8 w.refineGas +++ fixedEncode 8 w.accGas +++
  fixedEncode 2 w.exports +++ octetsEnc w.payload +++ vecEnc ImportInfo.enc w.imports +++
  vecEnc XtInfo.enc w.xts

/-- Lines 148-164. `size_of::<ImportInfo>()` and `size_of::<ExtrinsicInfo>()` are 36. -/
def WorkItem.dec : Dec WorkItem :=
  (fixedDecode 32 4).bind fun s => (arrDec 32).bind fun c => (fixedDecode 64 8).bind fun g =>
  (fixedDecode 64 8).bind fun a => (fixedDecode 16 2).bind fun e => octetsDec.bind fun y =>
  (vecDec 36 ImportInfo.dec).bind fun i => (vecDec 36 XtInfo.dec).bind fun x =>
  .pure { service := s, codeHash := c, refineGas := g, accGas := a, exports := e, payload := y, imports := i, xts := x }

/-- `WorkPackage`, lines 185-199. -/
structure WorkPackage where
  authService : Nat
  authCode : Bytes
  ctx : RefineCtx
  token : Bytes
  config : Bytes
  items : List WorkItem
deriving DecidableEq, Repr

/-- Lines 210-218. -/
def WorkPackage.enc : Enc WorkPackage := fun p =>
  fixedEncode 4 p.authService +++ arrEnc p.authCode +++ RefineCtx.enc p.ctx +++ octetsEnc p.token +++
  octetsEnc p.config +++ vecEnc WorkItem.enc p.items

/-- Lines 221-235. -/
def WorkPackage.dec (P : Params) : Dec WorkPackage :=
  (fixedDecode 32 4).bind fun h => (arrDec 32).bind fun u => RefineCtx.dec.bind fun c =>
  octetsDec.bind fun j => octetsDec.bind fun f => (limitedDec P.maxItems WorkItem.dec).bind fun w =>
  .pure { authService := h, authCode := u, ctx := c, token := j, config := f, items := w }

/-! ## Extrinsics (`block/src/types/extrinsics/`) -/

/-- `TicketsXtEntry`, `tickets.rs` lines 33-39; derived codec, the ring signature is 784
bytes. -/
structure TicketXt where
  index : Nat
  proof : Bytes
deriving DecidableEq, Repr

def TicketXt.enc : Enc TicketXt := fun t => natEnc t.index +++ arrEnc t.proof
def TicketXt.dec : Dec TicketXt :=
  (intDecode 8).bind fun i => (arrDec 784).bind fun p => .pure { index := i, proof := p }

/-- `PreimagesXtEntry`, `preimages.rs` lines 28-34. -/
structure PreimageXt where
  service : Nat
  data : Bytes
deriving DecidableEq, Repr

/-- `preimages.rs` lines 45-49. -/
def PreimageXt.enc : Enc PreimageXt := fun p => fixedEncode 4 p.service +++ octetsEnc p.data

/-- `preimages.rs` lines 52-62. -/
def PreimageXt.dec : Dec PreimageXt :=
  (fixedDecode 32 4).bind fun s => octetsDec.bind fun d => .pure { service := s, data := d }

/-- `GuaranteesCredential`, `guarantees.rs` lines 48-54. -/
structure Credential where
  validator : Nat
  signature : Bytes
deriving DecidableEq, Repr

/-- `guarantees.rs` lines 61-65. -/
def Credential.enc : Enc Credential := fun c => fixedEncode 2 c.validator +++ arrEnc c.signature

/-- `guarantees.rs` lines 68-78. -/
def Credential.dec : Dec Credential :=
  (fixedDecode 16 2).bind fun v => (arrDec 64).bind fun s => .pure { validator := v, signature := s }

/-- `GuaranteesXtEntry`, `guarantees.rs` lines 85-93. -/
structure GuaranteeXt where
  report : WorkReport
  slot : Nat
  credentials : List Credential
deriving DecidableEq, Repr

/-- `guarantees.rs` lines 118-123. -/
def GuaranteeXt.enc : Enc GuaranteeXt := fun g =>
  WorkReport.enc g.report +++ fixedEncode 4 g.slot +++ vecEnc Credential.enc g.credentials

/-- `guarantees.rs` lines 126-137. `size_of::<GuaranteesCredential>()` is 66. -/
def GuaranteeXt.dec (P : Params) : Dec GuaranteeXt :=
  (WorkReport.dec P).bind fun r => (fixedDecode 32 4).bind fun t => (vecDec 66 Credential.dec).bind fun c =>
  .pure { report := r, slot := t, credentials := c }

/-- `AssurancesXtEntry`, `assurances.rs` lines 59-69. -/
structure AssuranceXt where
  anchor : Bytes
  bits : List Bool
  validator : Nat
  signature : Bytes
deriving DecidableEq, Repr

/-- `assurances.rs` lines 95-102. -/
def AssuranceXt.enc (P : Params) : Enc AssuranceXt := fun a =>
  arrEnc a.anchor +++ bitsEncFixed P.cores a.bits +++ fixedEncode 2 a.validator +++ arrEnc a.signature

/-- `assurances.rs` lines 105-114. -/
def AssuranceXt.dec (P : Params) : Dec AssuranceXt :=
  (arrDec 32).bind fun h => (bitsDecFixed P.cores).bind fun b => (fixedDecode 16 2).bind fun v =>
  (arrDec 64).bind fun s => .pure { anchor := h, bits := b, validator := v, signature := s }

/-- `Judgment`, `disputes.rs` lines 200-208. -/
structure Judgment where
  valid : Bool
  voter : Nat
  signature : Bytes
deriving DecidableEq, Repr

/-- `disputes.rs` lines 215-220. -/
def Judgment.enc : Enc Judgment := fun j =>
  boolEnc j.valid +++ fixedEncode 2 j.voter +++ arrEnc j.signature

/-- `disputes.rs` lines 223-234. -/
def Judgment.dec : Dec Judgment :=
  boolDec.bind fun v => (fixedDecode 16 2).bind fun i => (arrDec 64).bind fun s =>
  .pure { valid := v, voter := i, signature := s }

/-- `Verdict`, `disputes.rs` lines 123-131. -/
structure Verdict where
  report : Bytes
  epoch : Nat
  judgments : List Judgment
deriving DecidableEq, Repr

/-- `disputes.rs` lines 166-171; a `FixedVec` has no length prefix. -/
def Verdict.enc : Enc Verdict := fun v =>
  arrEnc v.report +++ fixedEncode 4 v.epoch +++ seqEnc Judgment.enc v.judgments

/-- `disputes.rs` lines 174-182. -/
def Verdict.dec (P : Params) : Dec Verdict :=
  (arrDec 32).bind fun r => (fixedDecode 32 4).bind fun e =>
  (seqDec Judgment.dec P.superMajority).bind fun j => .pure { report := r, epoch := e, judgments := j }

/-- `Culprit`, `disputes.rs` lines 256-265; derived codec. -/
structure Culprit where
  report : Bytes
  key : Bytes
  signature : Bytes
deriving DecidableEq, Repr

def Culprit.enc : Enc Culprit := fun c => arrEnc c.report +++ arrEnc c.key +++ arrEnc c.signature
def Culprit.dec : Dec Culprit :=
  (arrDec 32).bind fun r => (arrDec 32).bind fun k => (arrDec 64).bind fun s =>
  .pure { report := r, key := k, signature := s }

/-- `Fault`, `disputes.rs` lines 291-302; derived codec. -/
structure Fault where
  report : Bytes
  valid : Bool
  key : Bytes
  signature : Bytes
deriving DecidableEq, Repr

def Fault.enc : Enc Fault := fun f =>
  arrEnc f.report +++ boolEnc f.valid +++ arrEnc f.key +++ arrEnc f.signature
def Fault.dec : Dec Fault :=
  (arrDec 32).bind fun r => boolDec.bind fun v => (arrDec 32).bind fun k => (arrDec 64).bind fun s =>
  .pure { report := r, valid := v, key := k, signature := s }

/-- `DisputesXt`, `disputes.rs` lines 32-43; derived codec. -/
structure DisputesXt where
  verdicts : List Verdict
  culprits : List Culprit
  faults : List Fault
deriving DecidableEq, Repr

def DisputesXt.enc : Enc DisputesXt := fun d =>
  vecEnc Verdict.enc d.verdicts +++ vecEnc Culprit.enc d.culprits +++ vecEnc Fault.enc d.faults

/-- In memory a `Verdict` is 64 bytes, a `Culprit` 128 and a `Fault` 129. -/
def DisputesXt.dec (P : Params) : Dec DisputesXt :=
  (vecDec 64 (Verdict.dec P)).bind fun v => (vecDec 128 Culprit.dec).bind fun c =>
  (vecDec 129 Fault.dec).bind fun f => .pure { verdicts := v, culprits := c, faults := f }

/-- `Extrinsics`, `mod.rs` lines 51-59; derived codec over the five newtypes. -/
structure Extrinsics where
  tickets : List TicketXt
  preimages : List PreimageXt
  guarantees : List GuaranteeXt
  assurances : List AssuranceXt
  disputes : DisputesXt
deriving DecidableEq, Repr

/-- `TicketsXt` (`tickets.rs` lines 10-13), `PreimagesXt` (`preimages.rs` lines 9-12),
`GuaranteesXt` (`guarantees.rs` lines 15-18), `AssurancesXt` (`assurances.rs` lines 16-19). -/
def ticketsEnc : Enc (List TicketXt) := vecEnc TicketXt.enc
def preimagesEnc : Enc (List PreimageXt) := vecEnc PreimageXt.enc
def guaranteesEnc : Enc (List GuaranteeXt) := vecEnc GuaranteeXt.enc
def assurancesEnc (P : Params) : Enc (List AssuranceXt) := vecEnc (AssuranceXt.enc P)

def Extrinsics.enc (P : Params) : Enc Extrinsics := fun x =>
  ticketsEnc x.tickets +++ preimagesEnc x.preimages +++ guaranteesEnc x.guarantees +++
  assurancesEnc P x.assurances +++ DisputesXt.enc x.disputes

/-- In memory a ticket entry is 785 bytes and a preimage entry 32. -/
def Extrinsics.dec (P : Params) : Dec Extrinsics :=
  (vecDec 785 TicketXt.dec).bind fun t => (vecDec 32 PreimageXt.dec).bind fun p =>
  (limitedDec P.cores (GuaranteeXt.dec P)).bind fun g =>
  (limitedDec P.validators (AssuranceXt.dec P)).bind fun a => (DisputesXt.dec P).bind fun d =>
  .pure { tickets := t, preimages := p, guarantees := g, assurances := a, disputes := d }

/-! ## Headers and blocks (`block/src/types/block.rs`) -/

/-- `Ticket`, `common/src/types/ticket.rs` lines 8-14; derived codec. -/
structure Ticket where
  id : Bytes
  attempt : Nat
deriving DecidableEq, Repr

def Ticket.enc : Enc Ticket := fun t => arrEnc t.id +++ natEnc t.attempt
def Ticket.dec : Dec Ticket :=
  (arrDec 32).bind fun i => (intDecode 8).bind fun a => .pure { id := i, attempt := a }

/-- `EpochMarkerValidatorKey`, lines 42-46; derived codec. -/
structure EpochKey where
  bandersnatch : Bytes
  ed25519 : Bytes
deriving DecidableEq, Repr

def EpochKey.enc : Enc EpochKey := fun k => arrEnc k.bandersnatch +++ arrEnc k.ed25519
def EpochKey.dec : Dec EpochKey :=
  (arrDec 32).bind fun b => (arrDec 32).bind fun e => .pure { bandersnatch := b, ed25519 := e }

/-- `EpochMarker`, lines 56-61; derived codec. -/
structure EpochMarker where
  entropy : Bytes
  ticketsEntropy : Bytes
  keys : List EpochKey
deriving DecidableEq, Repr

def EpochMarker.enc : Enc EpochMarker := fun m =>
  arrEnc m.entropy +++ arrEnc m.ticketsEntropy +++ seqEnc EpochKey.enc m.keys
def EpochMarker.dec (P : Params) : Dec EpochMarker :=
  (arrDec 32).bind fun e => (arrDec 32).bind fun t => (seqDec EpochKey.dec P.validators).bind fun k =>
  .pure { entropy := e, ticketsEntropy := t, keys := k }

/-- `BlockHeader` with its `BlockHeaderData`, lines 76-96 and 144-150. -/
structure Header where
  parent : Bytes
  stateRoot : Bytes
  xtHash : Bytes
  slot : Nat
  epochMarker : Option EpochMarker
  winners : Option (List Ticket)
  author : Nat
  vrf : Bytes
  offenders : List Bytes
  sealSig : Bytes
deriving DecidableEq, Repr

/-- `BlockHeaderData::encode_to`, lines 111-122: everything but the seal. -/
def Header.encData : Enc Header := fun h =>
  arrEnc h.parent +++ arrEnc h.stateRoot +++ arrEnc h.xtHash +++ fixedEncode 4 h.slot +++
  optEnc EpochMarker.enc h.epochMarker +++ optEnc (seqEnc Ticket.enc) h.winners +++
  fixedEncode 2 h.author +++ arrEnc h.vrf +++ vecEnc arrEnc h.offenders

/-- Lines 157-161. -/
def Header.enc : Enc Header := fun h => Header.encData h +++ arrEnc h.sealSig

/-- Lines 125-142 and 164-174. `size_of::<Ed25519PubKey>()` is 32. -/
def Header.dec (P : Params) : Dec Header :=
  (arrDec 32).bind fun p => (arrDec 32).bind fun r => (arrDec 32).bind fun x =>
  (fixedDecode 32 4).bind fun t => (optDec (EpochMarker.dec P)).bind fun e =>
  (optDec (seqDec Ticket.dec P.epoch)).bind fun w => (fixedDecode 16 2).bind fun i =>
  (arrDec 96).bind fun v => (vecDec 32 (arrDec 32)).bind fun o => (arrDec 96).bind fun s =>
  .pure { parent := p, stateRoot := r, xtHash := x, slot := t, epochMarker := e, winners := w, author := i, vrf := v, offenders := o, sealSig := s }

/-- `Block`, lines 30-34; derived codec. -/
structure Block where
  header : Header
  xt : Extrinsics
deriving DecidableEq, Repr

def Block.enc (P : Params) : Enc Block := fun b => Header.enc b.header +++ Extrinsics.enc P b.xt
def Block.dec (P : Params) : Dec Block :=
  (Header.dec P).bind fun h => (Extrinsics.dec P).bind fun x => .pure { header := h, xt := x }

/-! ## Hashes -/

/-- `hash::<Blake2b256>(&x.encode()?)?`. -/
def hashOf (H : Bytes → Bytes) (e : Except Err Bytes) : Except Err Bytes :=
  match e with
  | .error x => .error x
  | .ok b => .ok (H b)

/-- `BlockHeader::hash`, `block.rs` lines 234-236. -/
def Header.hash (H : Bytes → Bytes) (h : Header) : Except Err Bytes := hashOf H (Header.enc h)

/-- One round of the loop of `encode_with_hashed_reports`, `guarantees.rs` lines 38-43. -/
def GuaranteeXt.encHashed (H : Bytes → Bytes) : Enc GuaranteeXt := fun g =>
  hashOf H (WorkReport.enc g.report) +++ fixedEncode 4 g.slot +++ vecEnc Credential.enc g.credentials

/-- `encode_with_hashed_reports`, `guarantees.rs` lines 35-45. -/
def guaranteesEncHashed (H : Bytes → Bytes) : Enc (List GuaranteeXt) := vecEnc (GuaranteeXt.encHashed H)

/-- `Extrinsics::hash`, `mod.rs` lines 75-83. -/
def Extrinsics.hash (P : Params) (H : Bytes → Bytes) (x : Extrinsics) : Except Err Bytes :=
  hashOf H (hashOf H (ticketsEnc x.tickets) +++ hashOf H (preimagesEnc x.preimages) +++
    hashOf H (guaranteesEncHashed H x.guarantees) +++ hashOf H (assurancesEnc P x.assurances) +++
    hashOf H (DisputesXt.enc x.disputes))

/-! ## Service code and accumulation operands -/

/-- `AccountCode::decode`, `/repo/state/src/types/services.rs` lines 89-99: the metadata is
read as `Vec<u8>`, the code is the rest. -/
def accountCodeDec : Dec (Bytes × Bytes) :=
  vecU8Dec.bind fun m => fun inp => .ok ((m, inp), [])

/-- `AccumulateOperand`, `/repo/pvm/pvm-types/src/invoke_args.rs` lines 10-26; derived codec. -/
structure Operand where
  packageHash : Bytes
  segmentRoot : Bytes
  authorizer : Bytes
  payloadHash : Bytes
  gas : Nat
  result : WorkResult
  trace : Bytes
deriving DecidableEq, Repr

def Operand.enc : Enc Operand := fun o =>
  arrEnc o.packageHash +++ arrEnc o.segmentRoot +++ arrEnc o.authorizer +++ arrEnc o.payloadHash +++
  natEnc o.gas +++ WorkResult.enc o.result +++ vecU8Enc o.trace

/-- `DeferredTransfer`, lines 30-42. -/
structure Transfer where
  sender : Nat
  dest : Nat
  amount : Nat
  memo : Bytes
  gas : Nat
deriving DecidableEq, Repr

/-- Lines 49-56. -/
def Transfer.enc : Enc Transfer := fun t =>
  fixedEncode 4 t.sender +++ fixedEncode 4 t.dest +++ fixedEncode 8 t.amount +++ arrEnc t.memo +++
  fixedEncode 8 t.gas

/-- `AccumulateInput`, lines 59-64, and its encoder, lines 75-87. -/
inductive AccInput where
  | operand (o : Operand)
  | transfer (t : Transfer)
deriving DecidableEq, Repr

def AccInput.enc : Enc AccInput
  | .operand o => natEnc 0 +++ Operand.enc o
  | .transfer t => natEnc 1 +++ Transfer.enc t

end Fastroll.Wire
