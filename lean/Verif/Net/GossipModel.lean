import Verif.Net.FuzzModel

/-!
# Model of the block announcements and block requests between nodes

Transcribes
* `/repo/network/src/streams/stream_kinds.rs`,
* `/repo/network/src/streams/up_streams.rs` lines 61-121 (announcements coming in),
* `/repo/network/src/streams/ce_streams/{mod,block_request,responder}.rs` (CE 128),
* `/repo/network/src/manager.rs` lines 46-347 (the table of peers, the loops that accept streams, who connects),
* `/repo/network/src/utils.rs` lines 7-31, `/repo/network/src/types.rs`,
* `/repo/storage/src/node_storage.rs` lines 40-55 and 123-136, `/repo/block/src/types/block.rs` lines 238-245,
* the stores made by `/repo/node/src/scheduler/chain_extension.rs` 32-95, `/repo/node/src/roles/author.rs` 119-186,
  `/repo/node/src/roles/importer.rs` 150-174 and `/repo/node/src/jam_node/init.rs` 19-32.

Simplifications.
* A stream is the list of the pieces in which quinn has its octets ready; `read_chunk` gives at most the first of
  them.  At its end the peer has finished its side.  Writes do not fail.
* Of the header and extrinsics stores only what they hold is kept (C17 and C62 cover the databases).
* Tracing, connection errors and the channel to the importer are left out: a block sent to the importer counts as
  delivered.
-/
namespace Fastroll.Net
open Fastroll.Codec Fastroll.Wire

/-! ## Kinds of streams -/

/-- `CeStreamKind`: `stream_kinds.rs` 43-63. -/
inductive CeKind where
  | blockRequest
  | stateRequest
  | ticketFirst
  | ticketSecond
  | packageSubmission
  | packageSharing
  | reportDistribution
  | reportRequest
  | shardDistribution
  | auditShardRequest
  | segmentShardFirst
  | segmentShardSecond
  | assuranceDistribution
  | preimageAnnouncement
  | preimageRequest
  | auditAnnouncement
  | judgmentPublication
deriving DecidableEq, Repr

/-- The discriminants, as `T::CE_STREAM_KIND as u8` writes them. -/
def CeKind.num : CeKind → Nat
  | .blockRequest => 128
  | .stateRequest => 129
  | .ticketFirst => 131
  | .ticketSecond => 132
  | .packageSubmission => 133
  | .packageSharing => 134
  | .reportDistribution => 135
  | .reportRequest => 136
  | .shardDistribution => 137
  | .auditShardRequest => 138
  | .segmentShardFirst => 139
  | .segmentShardSecond => 140
  | .assuranceDistribution => 141
  | .preimageAnnouncement => 142
  | .preimageRequest => 143
  | .auditAnnouncement => 144
  | .judgmentPublication => 145

/-- `CeStreamKind::try_from`: 65-91. -/
def CeKind.ofNum : Nat → Option CeKind
  | 128 => some .blockRequest
  | 129 => some .stateRequest
  | 131 => some .ticketFirst
  | 132 => some .ticketSecond
  | 133 => some .packageSubmission
  | 134 => some .packageSharing
  | 135 => some .reportDistribution
  | 136 => some .reportRequest
  | 137 => some .shardDistribution
  | 138 => some .auditShardRequest
  | 139 => some .segmentShardFirst
  | 140 => some .segmentShardSecond
  | 141 => some .assuranceDistribution
  | 142 => some .preimageAnnouncement
  | 143 => some .preimageRequest
  | 144 => some .auditAnnouncement
  | 145 => some .judgmentPublication
  | _ => none

/-- `StreamKind`: 4-9; the only UP kind is the block announcement, 20-24. -/
inductive StreamKind where
  | up
  | ce (k : CeKind)
deriving DecidableEq, Repr

/-- `StreamKind::from_u8`: 11-18, with 26-35. -/
def StreamKind.ofOctet (x : UInt8) : Option StreamKind :=
  if x.toNat ≤ 127 then if x.toNat = 0 then some .up else none
  else (CeKind.ofNum x.toNat).map .ce

/-! ## Reading -/

/-- `read_chunk(max, true)`: the next piece, or its first `max` octets. -/
def readChunk (max : Nat) : List Bytes → Option (Bytes × List Bytes)
  | [] => none
  | c :: cs =>
    if c = [] then readChunk max cs
    else if c.length ≤ max then some (c, cs)
    else some (c.take max, c.drop max :: cs)

/-- `CHUNK_SIZE`: `types.rs` 6. -/
def chunkSize : Nat := 1024

/-! ## Announcements -/

/-- `block_announcement_blob`: `block.rs` 238-245. -/
def announcement (H : Bytes → Bytes) (h : Header) : Except Err Bytes :=
  Header.enc h +++ Header.hash H h +++ natEnc h.slot

/-- `BlockAnnouncement`, derived decoder: `types.rs` 8-13. -/
def announcementDec (P : Params) : Dec (Header × Bytes × Nat) :=
  (Header.dec P).bind fun h => (arrDec 32).bind fun k => (intDecode 32).bind fun t => .pure (h, k, t)

/-- What came out of the loop over the announcements: the hashes for which a request was made, in order, and whether
the task died of a panic. -/
structure Heard where
  hashes : List Bytes
  panicked : Bool
deriving DecidableEq, Repr

/-- `handle_incoming_stream`: `up_streams.rs` 61-121, with a bound on the rounds. -/
def heard (P : Params) : Nat → List Bytes → Heard
  | 0, _ => ⟨[], false⟩
  | n + 1, cs =>
    match readChunk chunkSize cs with
    | none => ⟨[], false⟩
    | some (b, cs) =>
      match announcementDec P b with
      | .ok ((_, k, _), _) => let r := heard P n cs; ⟨k :: r.hashes, r.panicked⟩
      | .error .panic => ⟨[], true⟩
      | .error _ => heard P n cs

/-- The whole stream: every round takes at least one octet. -/
def listen (P : Params) (cs : List Bytes) : Heard := heard P cs.flatten.length cs

/-! ## Requests -/

/-- `BlockRequestInitArgs`, derived codec: `block_request.rs` 16-21. -/
structure Request where
  hash : Bytes
  ascending : Bool
  count : Nat
deriving DecidableEq, Repr

def Request.enc : Enc Request := fun q => arrEnc q.hash +++ boolEnc q.ascending +++ natEnc q.count
def Request.dec : Dec Request :=
  (arrDec 32).bind fun h => boolDec.bind fun a => (intDecode 32).bind fun n => .pure ⟨h, a, n⟩

/-- The request made for an announcement: `up_streams.rs` 80-91. -/
def requestFor (k : Bytes) : Request := ⟨k, false, 1⟩

/-- What `open_stream_and_request` writes: `ce_streams/mod.rs` 22-39. -/
def Request.sent (q : Request) : Except Err Bytes := .ok [UInt8.ofNat (CeKind.num .blockRequest)] +++ q.enc

/-! ## The answering side -/

/-- The header and extrinsics stores. -/
structure Store where
  header : Bytes → Option Header
  xt : Bytes → Option Extrinsics

/-- `get_block`: `node_storage.rs` 123-136. -/
def Store.block (S : Store) (k : Bytes) : Option Block :=
  match S.header k with
  | none => none
  | some h =>
    match S.xt h.xtHash with
    | none => none
    | some x => some ⟨h, x⟩

/-- What the peer gets on a stream it opened. -/
inductive Answer where
  /-- A response of these octets. -/
  | sent (b : Bytes)
  /-- The stream is dropped without one. -/
  | nothing
  /-- The task panics. -/
  | panic
  /-- The stream stays open for announcements. -/
  | announcements
deriving DecidableEq, Repr

/-- The response of `respond` with `encode_response_args`: the blocks one after the other, `ce_streams/mod.rs` 65-75,
`block_request.rs` 63-66. -/
def blocksEnc (P : Params) (bs : List Block) : Except Err Bytes := seqEnc (Block.enc P) bs

/-- `process_and_respond` with `get_blocks`: `ce_streams/mod.rs` 107-114, `block_request.rs` 49-61,
`node_storage.rs` 42-54. -/
def respondTo (P : Params) (S : Store) (q : Request) : Answer :=
  if q.ascending = false ∧ q.count = 1 then
    match S.block q.hash with
    | none => .nothing
    | some b =>
      match blocksEnc P [b] with
      | .ok o => .sent o
      | .error _ => .nothing
  else .panic

/-- `CeStreamResponder::run`: `responder.rs` 17-55. -/
def respond (P : Params) (S : Store) (k : CeKind) (cs : List Bytes) : Answer :=
  match k with
  | .blockRequest =>
    match readChunk chunkSize cs with
    | none => .nothing
    | some (b, _) =>
      match Request.dec b with
      | .ok (q, _) => respondTo P S q
      | .error .panic => .panic
      | .error _ => .nothing
  | _ => .panic

/-- `handle_all_streams` with `read_stream_kind`: `manager.rs` 116-160. -/
def handleStream (P : Params) (S : Store) (cs : List Bytes) : Answer :=
  match readExact 1 cs with
  | some ([x], cs) =>
    match StreamKind.ofOctet x with
    | none => .nothing
    | some .up => .announcements
    | some (.ce k) => respond P S k cs
  | _ => .nothing

/-- The streams of a connection that the peer initiated: every stream is a task of its own, `manager.rs` 94-113. -/
def acceptorLoop (P : Params) (S : Store) (ss : List (List Bytes)) : List Answer := ss.map (handleStream P S)

/-- The streams of a connection this node initiated: one after the other in one task, `manager.rs` 308-345.  Streams
after a panic stay without an answer. -/
def initiatorLoop (P : Params) (S : Store) : List (List Bytes) → List Answer
  | [] => []
  | s :: ss =>
    match handleStream P S s with
    | .panic => .panic :: ss.map fun _ => .nothing
    | a => a :: initiatorLoop P S ss

/-! ## The asking side -/

/-- `decode_response`: `block_request.rs` 41-47, with a bound on the rounds; `none` if a decoder panics. -/
def decodeBlocks (P : Params) : Nat → Bytes → Option (List Block)
  | 0, _ => some []
  | n + 1, inp =>
    match Block.dec P inp with
    | .ok (b, rest) => (decodeBlocks P n rest).map (b :: ·)
    | .error .panic => none
    | .error _ => some []

/-- What becomes of a request. -/
inductive Fetched where
  /-- This block goes to the importer. -/
  | block (b : Block)
  /-- The request fails with an error. -/
  | failed
  /-- The task panics, `blocks[0]` of an empty vector or in a decoder. -/
  | panic
deriving DecidableEq, Repr

/-- `read_respond` and the use of its result: `ce_streams/mod.rs` 41-63, `up_streams.rs` 82-109. -/
def fetched (P : Params) (cs : List Bytes) : Fetched :=
  match readChunk chunkSize cs with
  | none => .failed
  | some (o, _) =>
    match decodeBlocks P (o.length + 1) o with
    | some (b :: _) => .block b
    | _ => .panic

/-- The pieces a peer sees of an answer. -/
def Answer.octets : Answer → Bytes
  | .sent b => b
  | _ => []

/-! ## What the stores come to hold -/

/-- Events that change the stores. -/
inductive Event where
  /-- `set_genesis_state`: `init.rs` 19-32. -/
  | genesis (h : Header)
  /-- `author_block_commit_header` and the announcement: `author.rs` 137-145, `chain_extension.rs` 52-76. -/
  | authorHeader (h : Header)
  /-- The end of `author_block_commit_state`: `author.rs` 174-184. -/
  | authorExtrinsics (h : Header) (x : Extrinsics)
  /-- `import_block` of an accepted block: `importer.rs` 166-171. -/
  | imported (b : Block)
deriving DecidableEq

/-- `Extrinsics::default()`. -/
def noExtrinsics : Extrinsics := ⟨[], [], [], [], ⟨[], [], []⟩⟩

/-- `Hash32::default()`. -/
def zero32 : Bytes := List.replicate 32 0

/-- `commit_header`, `insert_header`: `header_db.rs` 92-99, 128-140. -/
def Store.putHeader (H : Bytes → Bytes) (S : Store) (h : Header) : Store :=
  match Header.hash H h with
  | .error _ => S
  | .ok k => { S with header := fun j => if j = k then some h else S.header j }

/-- `set_xt`: `xt_db.rs` 45-48. -/
def Store.putXt (S : Store) (k : Bytes) (x : Extrinsics) : Store := { S with xt := fun j => if j = k then some x else S.xt j }

/-- One event. -/
def Store.step (H : Bytes → Bytes) (S : Store) : Event → Store
  | .genesis h => (S.putHeader H h).putXt zero32 noExtrinsics
  | .authorHeader h => S.putHeader H h
  | .authorExtrinsics h x => S.putXt h.xtHash x
  | .imported b => S.putHeader H b.header

def emptyStore : Store := ⟨fun _ => none, fun _ => none⟩

/-- A history. -/
def Store.after (H : Bytes → Bytes) (es : List Event) : Store := es.foldl (Store.step H) emptyStore

/-! ## Who connects to whom -/

/-- `preferred_initiator`: `utils.rs` 7-17.  `Ord` on keys is lexicographic. -/
def preferredInitiator (a b : Bytes) : Bytes :=
  if xor (xor (decide (127 < (a.getD 31 0).toNat)) (decide (127 < (b.getD 31 0).toNat))) (bytesLt a b) then a else b

/-- A validator as far as the network sees it: the signing key and the socket address in the metadata,
`peers.rs` 111-117.  The address is 16 octets and a port. -/
structure Peer where
  key : Bytes
  addr : Bytes × Nat
deriving DecidableEq, Repr

/-- `socket_address`: `validator_keys.rs` 38-46.  128 octets of metadata make it succeed. -/
def socketAddress (metadata : Bytes) : Except Err (Bytes × Nat) :=
  match fixedDecode 16 2 ((metadata.take 18).drop 16) with
  | .error e => .error e
  | .ok (p, _) => .ok (metadata.take 16, p)

/-- `validator_set_to_peers`: `utils.rs` 19-31; keys of which the address cannot be read are left out. -/
def peersOf : List (Bytes × Bytes) → List Peer
  | [] => []
  | (k, m) :: vs =>
    match socketAddress m with
    | .error _ => peersOf vs
    | .ok a => ⟨k, a⟩ :: peersOf vs

/-- `DashMap` by address: a later entry replaces an earlier one. -/
def insertPeer (ps : List Peer) (p : Peer) : List Peer := ps.filter (fun q => decide (q.addr ≠ p.addr)) ++ [p]

/-- `load_validator_peers`: `manager.rs` 46-71. -/
def peerTable (me : Bytes × Nat) (past active staging : List (Bytes × Bytes)) : List Peer :=
  ((peersOf past ++ peersOf active ++ peersOf staging).foldl insertPeer []).filter
    fun p => decide (p.addr ≠ me) && decide (p.addr ≠ (List.replicate 16 0, 0))

/-- The predicates of `connect_to_peers` and `connect_to_all_peers`: `manager.rs` 211-216, 228-230. -/
def connectsFirst (me : Bytes) (connected : Bool) (p : Peer) : Bool :=
  !connected && decide (me ≠ p.key) && decide (me = preferredInitiator me p.key)

def connectsLater (me : Bytes) (connected : Bool) (p : Peer) : Bool := !connected && decide (me ≠ p.key)

end Fastroll.Net
