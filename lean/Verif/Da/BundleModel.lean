import Verif.Wire.Model
/-!
# Model of the auditable bundle and its codec

Transcribes `/repo/pvm/pvm-invocation/src/refine/auditable_bundle.rs`. A segment
(`ExportDataSegment = FixedVec<u8, 4104>`) is a byte list of that length; its codec is the generic one of
`FixedVec`, `codec/fr-codec/src/lib.rs` lines 378-409, element by element through the integer codec of `u8`.
-/
namespace Fastroll.Da
open Fastroll.Codec
open Fastroll.Wire

/-- `AuditableBundle`, lines 14-20. -/
structure Bundle where
  package : WorkPackage
  xts : List (List Wire.Bytes)
  imports : List (List Wire.Bytes)
  justs : List (List (List Wire.Bytes))
  deriving DecidableEq

/-- `FixedVec<u8, 4104>` encode. -/
def segmentEnc : Enc Wire.Bytes := seqEnc fun b => natEnc b.toNat

/-- `FixedVec<u8, 4104>` decode. -/
def segmentDec (size : Nat) : Dec Wire.Bytes :=
  seqDec ((intDecode 8).bind fun n => .pure (UInt8.ofNat n)) size

/-- Lines 46-71. -/
def Bundle.enc : Enc Bundle := fun b =>
  WorkPackage.enc b.package +++ seqEnc (seqEnc fun x => .ok x) b.xts +++
  seqEnc (seqEnc segmentEnc) b.imports +++ seqEnc (seqEnc (vecEnc arrEnc)) b.justs

/-- Running decoders one after the other. -/
def eachDec {α : Type} : List (Dec α) → Dec (List α)
  | [] => .pure []
  | d :: ds => d.bind fun a => (eachDec ds).bind fun as => .pure (a :: as)

/-- Lines 88-92: a buffer of the declared length, then a read. -/
def xtDec (x : XtInfo) : Dec Wire.Bytes := (reserve 1 x.length).bind fun _ => readBytes x.length

/-- Lines 75-124; `size` is the segment size. -/
def Bundle.dec (P : Params) (size : Nat) : Dec Bundle :=
  (WorkPackage.dec P).bind fun p =>
  (eachDec (p.items.map fun w => eachDec (w.xts.map xtDec))).bind fun xs =>
  (eachDec (p.items.map fun w => eachDec (w.imports.map fun _ => segmentDec size))).bind fun is =>
  (eachDec (p.items.map fun w => eachDec (w.imports.map fun _ => vecDec 32 (arrDec 32)))).bind fun js =>
  .pure { package := p, xts := xs, imports := is, justs := js }

end Fastroll.Da
