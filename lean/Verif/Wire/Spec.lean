import Verif.Wire.Model
import Verif.Codec.Spec
/-!
# Specification of the wire formats

The serialization of Appendix C of the Gray Paper as total functions from values to
bytes, written per type in the paper's field order and independent of the encoders and
decoders of the code; and, per type, which values the Rust type can hold.
-/
namespace Fastroll.Wire.Spec
open Fastroll.Codec (paperFixed Enc Dec)
open Fastroll.Wire

/-- The number of bytes after the first one in the general natural encoding: the length
class, from 0 to 7, or 8 from `2^56` on. -/
def natClass (x : Nat) : Nat :=
  if x < 2 ^ 7 then 0 else if x < 2 ^ 14 then 1 else if x < 2 ^ 21 then 2 else if x < 2 ^ 28 then 3
  else if x < 2 ^ 35 then 4 else if x < 2 ^ 42 then 5 else if x < 2 ^ 49 then 6 else if x < 2 ^ 56 then 7
  else 8

/-- The general natural encoding `E(x)`, `x < 2^64`. -/
def nat (x : Nat) : Bytes :=
  if natClass x = 8 then 255 :: paperFixed 8 x
  else UInt8.ofNat (2 ^ 8 - 2 ^ (8 - natClass x) + x / 2 ^ (8 * natClass x)) ::
    paperFixed (natClass x) (x % 2 ^ (8 * natClass x))

/-- `E(x)` of a sequence: the elements one after the other. -/
def seq {α : Type} (f : α → Bytes) (xs : List α) : Bytes := xs.flatMap f

/-- `E(↕x)`: length first. -/
def var {α : Type} (f : α → Bytes) (xs : List α) : Bytes := nat xs.length ++ seq f xs

/-- `E(↕x)` of an octet string. -/
def blob (b : Bytes) : Bytes := nat b.length ++ b

/-- `E(¿x)`. -/
def opt {α : Type} (f : α → Bytes) : Option α → Bytes
  | none => [0]
  | some a => 1 :: f a

/-- `E(b)` of a bit sequence of known length: octets of eight bits, least significant
first, the last one padded with zeros. -/
def octet (bs : List Bool) : UInt8 :=
  UInt8.ofNat ((bs.take 8).foldr (fun b n => (if b then 1 else 0) + 2 * n) 0)

def bits (n : Nat) (bs : List Bool) : Bytes :=
  (List.range ((n + 7) / 8)).map (fun i => octet (bs.drop (8 * i)))

/-- Increasing lists of byte strings, as sets and dictionaries are ordered. -/
def Increasing (ks : List Bytes) : Prop := ks.Pairwise (fun a b => bytesLt a b = true)

/-- Can be held by a vector of elements of `sz` bytes. -/
def Fits (n sz : Nat) : Prop := n * sz < 2 ^ 63

/-! ## Values of the Rust types and their layouts -/

structure CtxOk (c : RefineCtx) : Prop where
  anchor : c.anchor.length = 32
  stateRoot : c.stateRoot.length = 32
  beefyRoot : c.beefyRoot.length = 32
  lookupAnchor : c.lookupAnchor.length = 32
  lookupSlot : c.lookupSlot < 2 ^ 32
  size : c.prerequisites.length < 2 ^ 64
  sorted : Increasing c.prerequisites
  each : ∀ h ∈ c.prerequisites, h.length = 32

def ctx (c : RefineCtx) : Bytes :=
  c.anchor ++ c.stateRoot ++ c.beefyRoot ++ c.lookupAnchor ++ paperFixed 4 c.lookupSlot ++
  var id c.prerequisites

structure SpecsOk (s : AvailSpecs) : Prop where
  packageHash : s.packageHash.length = 32
  bundleLength : s.bundleLength < 2 ^ 32
  erasureRoot : s.erasureRoot.length = 32
  segmentRoot : s.segmentRoot.length = 32
  segmentCount : s.segmentCount < 2 ^ 16

def specs (s : AvailSpecs) : Bytes :=
  s.packageHash ++ paperFixed 4 s.bundleLength ++ s.erasureRoot ++ s.segmentRoot ++
  paperFixed 2 s.segmentCount

/-- `O(o)`: 0 and the output, or one of the error codes. -/
def result : WorkResult → Bytes
  | .output b => 0 :: blob b
  | .error .outOfGas => [1]
  | .error .panic => [2]
  | .error .badExports => [3]
  | .error .oversize => [4]
  | .error .bad => [5]
  | .error .big => [6]

def ResultOk : WorkResult → Prop
  | .output b => b.length < 2 ^ 63
  | .error _ => True

structure StatsOk (s : RefineStats) : Prop where
  gasUsed : s.gasUsed < 2 ^ 64
  imports : s.imports < 2 ^ 16
  xtCount : s.xtCount < 2 ^ 16
  xtOctets : s.xtOctets < 2 ^ 32
  exports : s.exports < 2 ^ 16

def stats (s : RefineStats) : Bytes :=
  nat s.gasUsed ++ nat s.imports ++ nat s.xtCount ++ nat s.xtOctets ++ nat s.exports

structure DigestOk (d : WorkDigest) : Prop where
  service : d.service < 2 ^ 32
  codeHash : d.codeHash.length = 32
  payloadHash : d.payloadHash.length = 32
  accGas : d.accGas < 2 ^ 64
  result : ResultOk d.result
  stats : StatsOk d.stats

def digest (d : WorkDigest) : Bytes :=
  paperFixed 4 d.service ++ d.codeHash ++ d.payloadHash ++ paperFixed 8 d.accGas ++ result d.result ++
  stats d.stats

structure ReportOk (P : Params) (r : WorkReport) : Prop where
  specs : SpecsOk r.specs
  ctx : CtxOk r.ctx
  core : r.core < 2 ^ 16
  authorizer : r.authorizer.length = 32
  authGas : r.authGas < 2 ^ 64
  trace : r.trace.length < 2 ^ 63
  lookupSize : r.lookup.length < 2 ^ 64
  lookupSorted : Increasing (r.lookup.map (·.1))
  lookup : ∀ p ∈ r.lookup, p.1.length = 32 ∧ p.2.length = 32
  digestCount : r.digests.length ≤ P.maxItems
  digestSize : r.digests.length < 2 ^ 64
  digests : ∀ d ∈ r.digests, DigestOk d

def report (r : WorkReport) : Bytes :=
  specs r.specs ++ ctx r.ctx ++ nat r.core ++ r.authorizer ++ nat r.authGas ++ blob r.trace ++
  var (fun p => p.1 ++ p.2) r.lookup ++ var digest r.digests

/-- The index of an imported segment is below `2^15`; the type of the code, `u16`, holds
more. -/
structure ImportOk (i : ImportInfo) : Prop where
  id : (match i.id with | .segmentRoot h => h | .packageHash h => h).length = 32
  index : i.index < 2 ^ 15

/-- `E(h, E2(i))` for a segment root and `E(h, E2(i + 2^15))` for a package hash. -/
def importInfo (i : ImportInfo) : Bytes :=
  match i.id with
  | .segmentRoot h => h ++ paperFixed 2 i.index
  | .packageHash h => h ++ paperFixed 2 (i.index + 2 ^ 15)

structure XtInfoOk (x : XtInfo) : Prop where
  hash : x.hash.length = 32
  length : x.length < 2 ^ 32

def xtInfo (x : XtInfo) : Bytes := x.hash ++ paperFixed 4 x.length

structure ItemOk (w : WorkItem) : Prop where
  service : w.service < 2 ^ 32
  codeHash : w.codeHash.length = 32
  refineGas : w.refineGas < 2 ^ 64
  accGas : w.accGas < 2 ^ 64
  exports : w.exports < 2 ^ 16
  payload : w.payload.length < 2 ^ 63
  importsFit : Fits w.imports.length 36
  imports : ∀ i ∈ w.imports, ImportOk i
  xtsFit : Fits w.xts.length 36
  xts : ∀ x ∈ w.xts, XtInfoOk x

def item (w : WorkItem) : Bytes :=
  paperFixed 4 w.service ++ w.codeHash ++ paperFixed 8 w.refineGas ++ paperFixed 8 w.accGas ++
  paperFixed 2 w.exports ++ blob w.payload ++ var importInfo w.imports ++ var xtInfo w.xts

structure PackageOk (P : Params) (p : WorkPackage) : Prop where
  authService : p.authService < 2 ^ 32
  authCode : p.authCode.length = 32
  ctx : CtxOk p.ctx
  token : p.token.length < 2 ^ 63
  config : p.config.length < 2 ^ 63
  itemCount : p.items.length ≤ P.maxItems
  itemSize : p.items.length < 2 ^ 64
  items : ∀ w ∈ p.items, ItemOk w

def package (p : WorkPackage) : Bytes :=
  paperFixed 4 p.authService ++ p.authCode ++ ctx p.ctx ++ blob p.token ++ blob p.config ++ var item p.items

structure TicketXtOk (t : TicketXt) : Prop where
  index : t.index < 2 ^ 8
  proof : t.proof.length = 784

def ticketXt (t : TicketXt) : Bytes := nat t.index ++ t.proof

structure PreimageXtOk (p : PreimageXt) : Prop where
  service : p.service < 2 ^ 32
  data : p.data.length < 2 ^ 63

def preimageXt (p : PreimageXt) : Bytes := paperFixed 4 p.service ++ blob p.data

structure CredentialOk (c : Credential) : Prop where
  validator : c.validator < 2 ^ 16
  signature : c.signature.length = 64

def credential (c : Credential) : Bytes := paperFixed 2 c.validator ++ c.signature

structure GuaranteeOk (P : Params) (g : GuaranteeXt) : Prop where
  report : ReportOk P g.report
  slot : g.slot < 2 ^ 32
  fit : Fits g.credentials.length 66
  credentials : ∀ c ∈ g.credentials, CredentialOk c

def guarantee (g : GuaranteeXt) : Bytes :=
  report g.report ++ paperFixed 4 g.slot ++ var credential g.credentials

structure AssuranceOk (P : Params) (a : AssuranceXt) : Prop where
  anchor : a.anchor.length = 32
  bits : a.bits.length = P.cores
  validator : a.validator < 2 ^ 16
  signature : a.signature.length = 64

def assurance (P : Params) (a : AssuranceXt) : Bytes :=
  a.anchor ++ bits P.cores a.bits ++ paperFixed 2 a.validator ++ a.signature

structure JudgmentOk (j : Judgment) : Prop where
  voter : j.voter < 2 ^ 16
  signature : j.signature.length = 64

def bool (b : Bool) : Bytes := if b then [1] else [0]

def judgment (j : Judgment) : Bytes := bool j.valid ++ paperFixed 2 j.voter ++ j.signature

structure VerdictOk (P : Params) (v : Verdict) : Prop where
  report : v.report.length = 32
  epoch : v.epoch < 2 ^ 32
  count : v.judgments.length = P.superMajority
  judgments : ∀ j ∈ v.judgments, JudgmentOk j

def verdict (v : Verdict) : Bytes := v.report ++ paperFixed 4 v.epoch ++ seq judgment v.judgments

structure CulpritOk (c : Culprit) : Prop where
  report : c.report.length = 32
  key : c.key.length = 32
  signature : c.signature.length = 64

def culprit (c : Culprit) : Bytes := c.report ++ c.key ++ c.signature

structure FaultOk (f : Fault) : Prop where
  report : f.report.length = 32
  key : f.key.length = 32
  signature : f.signature.length = 64

def fault (f : Fault) : Bytes := f.report ++ bool f.valid ++ f.key ++ f.signature

structure DisputesOk (P : Params) (d : DisputesXt) : Prop where
  verdictsFit : Fits d.verdicts.length 64
  verdicts : ∀ v ∈ d.verdicts, VerdictOk P v
  culpritsFit : Fits d.culprits.length 128
  culprits : ∀ c ∈ d.culprits, CulpritOk c
  faultsFit : Fits d.faults.length 129
  faults : ∀ f ∈ d.faults, FaultOk f

def disputes (d : DisputesXt) : Bytes :=
  var verdict d.verdicts ++ var culprit d.culprits ++ var fault d.faults

structure XtOk (P : Params) (x : Extrinsics) : Prop where
  ticketsFit : Fits x.tickets.length 785
  tickets : ∀ t ∈ x.tickets, TicketXtOk t
  preimagesFit : Fits x.preimages.length 32
  preimages : ∀ p ∈ x.preimages, PreimageXtOk p
  guaranteesCount : x.guarantees.length ≤ P.cores
  guaranteesSize : x.guarantees.length < 2 ^ 64
  guarantees : ∀ g ∈ x.guarantees, GuaranteeOk P g
  assurancesCount : x.assurances.length ≤ P.validators
  assurancesSize : x.assurances.length < 2 ^ 64
  assurances : ∀ a ∈ x.assurances, AssuranceOk P a
  disputes : DisputesOk P x.disputes

/-- `E(E_T, E_P, E_G, E_A, E_D)`. -/
def extrinsics (P : Params) (x : Extrinsics) : Bytes :=
  var ticketXt x.tickets ++ var preimageXt x.preimages ++ var guarantee x.guarantees ++
  var (assurance P) x.assurances ++ disputes x.disputes

structure TicketOk (t : Ticket) : Prop where
  id : t.id.length = 32
  attempt : t.attempt < 2 ^ 8

def ticket (t : Ticket) : Bytes := t.id ++ nat t.attempt

structure EpochKeyOk (k : EpochKey) : Prop where
  bandersnatch : k.bandersnatch.length = 32
  ed25519 : k.ed25519.length = 32

def epochKey (k : EpochKey) : Bytes := k.bandersnatch ++ k.ed25519

structure MarkerOk (P : Params) (m : EpochMarker) : Prop where
  entropy : m.entropy.length = 32
  ticketsEntropy : m.ticketsEntropy.length = 32
  count : m.keys.length = P.validators
  keys : ∀ k ∈ m.keys, EpochKeyOk k

def marker (m : EpochMarker) : Bytes := m.entropy ++ m.ticketsEntropy ++ seq epochKey m.keys

structure HeaderOk (P : Params) (h : Header) : Prop where
  parent : h.parent.length = 32
  stateRoot : h.stateRoot.length = 32
  xtHash : h.xtHash.length = 32
  slot : h.slot < 2 ^ 32
  epochMarker : ∀ m, h.epochMarker = some m → MarkerOk P m
  winners : ∀ w, h.winners = some w → w.length = P.epoch ∧ ∀ t ∈ w, TicketOk t
  author : h.author < 2 ^ 16
  vrf : h.vrf.length = 96
  offendersFit : Fits h.offenders.length 32
  offenders : ∀ k ∈ h.offenders, k.length = 32
  sealSig : h.sealSig.length = 96

/-- `E_U(H)`: the unsealed header. -/
def unsealed (h : Header) : Bytes :=
  h.parent ++ h.stateRoot ++ h.xtHash ++ paperFixed 4 h.slot ++ opt marker h.epochMarker ++
  opt (seq ticket) h.winners ++ paperFixed 2 h.author ++ h.vrf ++ var id h.offenders

/-- `E(H)`. -/
def header (h : Header) : Bytes := unsealed h ++ h.sealSig

structure BlockOk (P : Params) (b : Block) : Prop where
  header : HeaderOk P b.header
  xt : XtOk P b.xt

def block (P : Params) (b : Block) : Bytes := header b.header ++ extrinsics P b.xt

/-! ## What a codec must do -/

/-- The encoder writes the layout `s` and the decoder reads it back, leaving what follows. -/
def Codes {α : Type} (e : Enc α) (d : Dec α) (ok : α → Prop) (s : α → Bytes) : Prop :=
  ∀ a, ok a → e a = .ok (s a) ∧ ∀ rest, d (s a ++ rest) = .ok (a, rest)

/-- The extrinsic hash of the paper: `H(E(H#(E_T), H#(E_P), H#(g), H#(E_A), H#(E_D)))` with
`g` the guarantees in which each report is replaced by its hash. -/
def guaranteeHashed (H : Bytes → Bytes) (g : GuaranteeXt) : Bytes :=
  H (report g.report) ++ paperFixed 4 g.slot ++ var credential g.credentials

def xtHash (P : Params) (H : Bytes → Bytes) (x : Extrinsics) : Bytes :=
  H (H (var ticketXt x.tickets) ++ H (var preimageXt x.preimages) ++
    H (var (guaranteeHashed H) x.guarantees) ++ H (var (assurance P) x.assurances) ++ H (disputes x.disputes))

/-- Every byte string that is hashed for a block: the header, the five parts of the
extrinsic, their digest list and the work reports. -/
def hashed (P : Params) (H : Bytes → Bytes) (b : Block) : List Bytes :=
  [header b.header,
    H (var ticketXt b.xt.tickets) ++ H (var preimageXt b.xt.preimages) ++
      H (var (guaranteeHashed H) b.xt.guarantees) ++ H (var (assurance P) b.xt.assurances) ++
      H (disputes b.xt.disputes),
    var ticketXt b.xt.tickets, var preimageXt b.xt.preimages, var (guaranteeHashed H) b.xt.guarantees,
    var (assurance P) b.xt.assurances, disputes b.xt.disputes] ++
  b.xt.guarantees.map (fun g => report g.report)

/-- Accumulation operands as the paper serializes them: the trace is an octet string. -/
def operand (o : Operand) : Bytes :=
  o.packageHash ++ o.segmentRoot ++ o.authorizer ++ o.payloadHash ++ nat o.gas ++ result o.result ++
  blob o.trace

/-- A service code preimage: `E(↕m) ++ c`. -/
def serviceCode (m c : Bytes) : Bytes := blob m ++ c

end Fastroll.Wire.Spec
