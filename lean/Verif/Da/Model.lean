/-!
# Model of the erasure codec

Transcribes `/repo/common/erasure-coding/src/lib.rs` and `/repo/common/src/utils/zero_pad.rs`.

* The Reed–Solomon library (`reed_solomon_simd`) is the parameter `RS`: one call encodes a column of
  `msg_chunks` two-octet words, one call decodes a column from the words at hand. A library error is
  `none`. Adding the shards one by one is folded into the call.
* The `rayon` loops run column by column here, in order; `collect` keeps that order.
* `usize` arithmetic is `Nat`: the sizes involved are lengths of vectors in memory.
* A slice out of range, an index out of range and a `copy_from_slice` of unequal lengths are `panic`.
-/
namespace Fastroll.Da

abbrev Bytes := List UInt8

/-- What a call can end in: a result, `InsufficientChunks`, an error of the Reed–Solomon library, a codec
error, `PagedProofJustificationBlobTooLarge`, or a panic. -/
inductive Res (α : Type) where
  | ok (a : α)
  | insufficient (provided required : Nat)
  | library
  | codec
  | tooLarge
  | panic
  deriving DecidableEq, Repr

def Res.bind {α β : Type} (x : Res α) (f : α → Res β) : Res β :=
  match x with
  | .ok a => f a
  | .insufficient p r => .insufficient p r
  | .library => .library
  | .codec => .codec
  | .tooLarge => .tooLarge
  | .panic => .panic

/-- The library: `ReedSolomonEncoder` and `ReedSolomonDecoder` for fixed shard counts and two-octet
shards (lines 104-105, 169-170). `decode` gets the original words and the recovery words at hand, each
with its index, and returns the restored originals with theirs (`restored_original_iter`). -/
structure RS where
  encode : List Bytes → Option (List Bytes)
  decode : List (Nat × Bytes) → List (Nat × Bytes) → Option (List (Nat × Bytes))

/-- `zero_pad_data`, lines 80-91. -/
def zeroPadData (data : Bytes) (k : Nat) : Bytes :=
  if data.length % (k * 2) = 0 then data
  else data ++ List.replicate ((data.length / (k * 2) + 1) * (k * 2) - data.length) 0

/-- `&data[off..off + 2]`; `none` is the slice panic. -/
def wordAt (data : Bytes) (off : Nat) : Option Bytes :=
  if off + 2 ≤ data.length then some ((data.drop off).take 2) else none

/-- The words of column `p`: lines 110-115. -/
def originals (padded : Bytes) (k pairs p : Nat) : Option (List Bytes) :=
  (List.range k).mapM fun i => wordAt padded (2 * (p + i * pairs))

/-- `words_encoding` of column `p` as `(word_pos, chunk_idx, word)`, lines 103-131. -/
def encodeColumn (rs : RS) (padded : Bytes) (k pairs p : Nat) : Res (List (Nat × Nat × Bytes)) :=
  match originals padded k pairs p with
  | none => .panic
  | some ws =>
    match rs.encode ws with
    | none => .library
    | some rec => .ok ((ws ++ rec).zipIdx.map fun x => (p, x.2, x.1))

/-- `chunks[chunk_idx][2 * word_pos..2 * word_pos + 2].copy_from_slice(&word)`, lines 140-142 and
213-215. -/
def put (chunks : List Bytes) (e : Nat × Nat × Bytes) : Option (List Bytes) :=
  match chunks[e.2.1]? with
  | none => none
  | some c =>
    if 2 * e.1 + 2 ≤ c.length ∧ e.2.2.length = 2 then
      some (chunks.set e.2.1 (c.take (2 * e.1) ++ e.2.2 ++ c.drop (2 * e.1 + 2)))
    else none

/-- The merge loops, lines 137-144 and 210-217. -/
def putAll (chunks : List Bytes) (es : List (Nat × Nat × Bytes)) : Option (List Bytes) :=
  es.foldlM put chunks

/-- Collecting the columns, stopping at the first one that fails. -/
def columns (f : Nat → Res (List (Nat × Nat × Bytes))) : List Nat → Res (List (Nat × Nat × Bytes))
  | [] => .ok []
  | p :: ps => (f p).bind fun a => (columns f ps).bind fun b => .ok (a ++ b)

def mergeInto (chunks : List Bytes) (es : List (Nat × Nat × Bytes)) : Res (List Bytes) :=
  match putAll chunks es with
  | some cs => .ok cs
  | none => .panic

/-- `erasure_encode`, lines 93-147: `k` is `msg_chunks`, `n` is `total_chunks`. -/
def erasureEncode (rs : RS) (k n : Nat) (data : Bytes) : Res (List Bytes) :=
  let padded := zeroPadData data k
  let octets := padded.length / k
  (columns (encodeColumn rs padded k (octets / 2)) (List.range (octets / 2))).bind fun es =>
    mergeInto (List.replicate n (List.replicate octets 0)) es

/-- The chunks at hand with their indices, lines 153-157. -/
def indexed (chunks : List (Option Bytes)) : List (Bytes × Nat) :=
  chunks.zipIdx.filterMap fun x => x.1.map fun c => (c, x.2)

/-- The word of every chunk at position `p`, with the chunk's index, lines 181-183. -/
def columnWords (cs : List (Bytes × Nat)) (p : Nat) : Option (List (Nat × Bytes)) :=
  cs.mapM fun c => (wordAt c.1 (2 * p)).map fun w => (c.2, w)

/-- `shard_index_typed`, lines 72-78: the words that are originals. -/
def origWords (k : Nat) (ws : List (Nat × Bytes)) : List (Nat × Bytes) :=
  ws.filter fun x => decide (x.1 < k)

/-- `shard_index_typed`, lines 72-78: the words that are recoveries, renumbered from zero. -/
def recWords (k : Nat) (ws : List (Nat × Bytes)) : List (Nat × Bytes) :=
  (ws.filter fun x => !decide (x.1 < k)).map fun x => (x.1 - k, x.2)

/-- `words_recovery` of column `p`, lines 173-206. -/
def recoverColumn (rs : RS) (k : Nat) (cs : List (Bytes × Nat)) (p : Nat) :
    Res (List (Nat × Nat × Bytes)) :=
  match columnWords cs p with
  | none => .panic
  | some ws =>
    match rs.decode (origWords k ws) (recWords k ws) with
    | none => .library
    | some restored => .ok ((origWords k ws ++ restored).map fun x => (p, x.1, x.2))

/-- `erasure_recover`, lines 149-221. The first chunk at hand sets the chunk length (line 166). -/
def erasureRecover (rs : RS) (k : Nat) (chunks : List (Option Bytes)) : Res Bytes :=
  let cs := indexed chunks
  if cs.length < k then .insufficient cs.length k
  else
    match cs with
    | [] => .panic
    | c :: _ =>
      let octets := c.1.length
      ((columns (recoverColumn rs k cs) (List.range (octets / 2))).bind fun es =>
        mergeInto (List.replicate k (List.replicate octets 0)) es).bind fun r => .ok r.flatten

/-- `zero_pad`, utils/zero_pad.rs lines 5-18; a zero block size panics. -/
def zeroPad (block : Nat) (data : Bytes) : Option Bytes :=
  if block = 0 then none
  else
    let size := if data.isEmpty then block else (data.length + block - 1) / block * block
    some (data.take size ++ List.replicate (size - data.length) 0)

end Fastroll.Da
