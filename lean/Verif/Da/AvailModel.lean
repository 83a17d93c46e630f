import Verif.Da.Model
import Verif.Merkle.Model
import Verif.Wire.Model
/-!
# Model of the availability specification

Transcribes `/repo/pvm/pvm-invocation/src/refine/avail_spec.rs`. The hash (Blake2b) is the parameter `h`;
the encoded package and bundle are byte strings (their codecs are modelled in `Verif.Wire` and
`Verif.Da.BundleModel`). The chain's constants are the parameters `Spec`.
-/
namespace Fastroll.Da
open Fastroll.Merkle (pageJustification pageLeafHashes balancedRoot constantRoot)
open Fastroll.Wire (cat arrEnc AvailSpecs)
open Fastroll.Codec (vecEnc)

/-- `SEGMENT_SIZE`, constants/mod.rs line 102. -/
def segmentSize : Nat := 4104

/-- `PAGE_DEPTH`, line 20. -/
def pageDepth : Nat := 6

/-- `ERASURE_CODE_MESSAGE_CHUNKS`, `ERASURE_CODE_TOTAL_CHUNKS`, `ERASURE_CHUNK_SIZE`, `VALIDATOR_COUNT`. -/
structure Chain where
  msgChunks : Nat
  totalChunks : Nat
  chunkSize : Nat
  validators : Nat

def ofCodec (x : Except Codec.Err Bytes) : Res Bytes :=
  match x with
  | .ok b => .ok b
  | .error _ => .codec

/-- One page of the paged proofs, lines 30-45, with the `try_from` of lines 51-54. -/
def pageProof (h : Bytes → Bytes) (segs : List Bytes) (page : Nat) : Res Bytes :=
  match pageLeafHashes h segs page pageDepth with
  | none => .panic
  | some leaves =>
    (ofCodec (cat (vecEnc arrEnc (pageJustification h segs page pageDepth)) (vecEnc arrEnc leaves))).bind
      fun buf =>
        match zeroPad segmentSize buf with
        | none => .panic
        | some blob => if blob.length = segmentSize then .ok blob else .tooLarge

def sequence {α β : Type} (f : α → Res β) : List α → Res (List β)
  | [] => .ok []
  | a :: as => (f a).bind fun b => (sequence f as).bind fun bs => .ok (b :: bs)

/-- `generate_paged_proofs`, lines 17-57; `1 << PAGE_DEPTH` is the page size. -/
def pagedProofs (h : Bytes → Bytes) (segs : List Bytes) : Res (List Bytes) :=
  sequence (pageProof h segs) (List.range ((segs.length + 2 ^ pageDepth - 1) / 2 ^ pageDepth))

/-- `segments_transposed[j][i] = chunk`, line 97. -/
def setCell (t : List (List Bytes)) (j i : Nat) (c : Bytes) : Option (List (List Bytes)) :=
  match t[j]? with
  | none => none
  | some row => if i < row.length then some (t.set j (row.set i c)) else none

/-- Lines 95-99: the writes of one segment, then of all of them. -/
def setColumn (t : List (List Bytes)) (i : Nat) (cs : List Bytes) : Option (List (List Bytes)) :=
  cs.zipIdx.foldlM (fun t x => setCell t x.2 i x.1) t

def transposeInto (t : List (List Bytes)) (css : List (List Bytes)) : Option (List (List Bytes)) :=
  css.zipIdx.foldlM (fun t x => setColumn t x.2 x.1) t

/-- `compute_erasure_root`, lines 59-117. -/
def erasureRoot (rs : RS) (ch : Chain) (h : Bytes → Bytes) (bundle : Bytes) (segs : List Bytes) : Res Bytes :=
  match zeroPad ch.chunkSize bundle with
  | none => .panic
  | some padded =>
    (erasureEncode rs ch.msgChunks ch.totalChunks padded).bind fun bundleChunks =>
    (pagedProofs h segs).bind fun proofs =>
    (sequence (erasureEncode rs ch.msgChunks ch.totalChunks) (segs ++ proofs)).bind fun css =>
    match transposeInto (List.replicate ch.validators
        (List.replicate (segs ++ proofs).length (List.replicate 12 0))) css with
    | none => .panic
    | some groups =>
      .ok (balancedRoot h (((bundleChunks.map h).zip (groups.map (balancedRoot h))).map fun x => x.1 ++ x.2))

/-- `build_avail_specs`, lines 119-144: `package` and `bundle` are the encodings of lines 124 and 126. -/
def buildAvailSpecs (rs : RS) (ch : Chain) (h : Bytes → Bytes) (package bundle : Bytes) (segs : List Bytes) :
    Res AvailSpecs :=
  (erasureRoot rs ch h bundle segs).bind fun root =>
    .ok { packageHash := h package, bundleLength := bundle.length % 2 ^ 32, erasureRoot := root,
          segmentRoot := constantRoot h segs, segmentCount := segs.length % 2 ^ 16 }

end Fastroll.Da
