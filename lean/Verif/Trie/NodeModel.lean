/-
Model of the nodes of the state trie and their database encoding:
`state/state-merkle-v2/src/types.rs` and `utils.rs`.

A `BitVec<u8, Msb0>` is a list of Booleans, most significant bit of the first byte first.  (The crate's
`to_bitvec` keeps the bit offset of the slice it copies; every slice whose raw bytes are taken
by `bits_decode_msb` starts at a byte boundary, so the raw bytes are the bits in groups of eight.)
-/
namespace Fastroll.Trie

/-- Bits of a byte, most significant first. -/
def byteBits (b : UInt8) : List Bool :=
  [b.toNat.testBit 7, b.toNat.testBit 6, b.toNat.testBit 5, b.toNat.testBit 4,
   b.toNat.testBit 3, b.toNat.testBit 2, b.toNat.testBit 1, b.toNat.testBit 0]

/-- `bits_encode_msb`, state-merkle-v2/src/utils.rs 5-8. -/
def bits (bs : List UInt8) : List Bool := bs.flatMap byteBits

/-- The byte with the given bits. -/
def byteOf (bs : List Bool) : UInt8 := UInt8.ofNat (bs.foldl (fun n b => 2 * n + b.toNat) 0)

/-- `bits_decode_msb`, state-merkle-v2/src/utils.rs 10-13; a last incomplete byte is filled up with
zero bits. -/
def unbits : List Bool → List UInt8
  | b0 :: b1 :: b2 :: b3 :: b4 :: b5 :: b6 :: b7 :: r =>
    byteOf [b0, b1, b2, b3, b4, b5, b6, b7] :: unbits r
  | [] => []
  | r => [byteOf (r ++ List.replicate (8 - r.length) false)]

/-- `LeafNodeData`, state-merkle-v2/src/types.rs 64-68. -/
inductive LeafData
  | embedded (v : List UInt8)
  | regular (h : List UInt8)
  deriving DecidableEq, Repr

/-- `LeafNode`, state-merkle-v2/src/types.rs 70-74. -/
structure Leaf where
  key : List Bool
  data : LeafData
  deriving DecidableEq, Repr

/-- `BranchNode`, state-merkle-v2/src/types.rs 158-164. -/
structure Branch where
  left : List Bool
  right : List Bool
  deriving DecidableEq, Repr

/-- `MerkleNode`, state-merkle-v2/src/types.rs 246-250. -/
inductive Node
  | leaf (l : Leaf)
  | branch (b : Branch)
  deriving DecidableEq, Repr

/-- The errors of the node codec. -/
inductive NodeErr
  | nodeType | dataLength | sliceRange | byteLength | empty
  deriving DecidableEq, Repr

/-- `NODE_SIZE_BITS`, state-merkle-v2/src/types.rs 18-19. -/
def nodeSizeBits : Nat := 512

/-- The loop `while node.len() < NODE_SIZE_BITS { node.push(false) }`,
state-merkle-v2/src/types.rs 100-102. -/
def padNode (bs : List Bool) : List Bool := bs ++ List.replicate (nodeSizeBits - bs.length) false

/-- `LeafNode::encode`, state-merkle-v2/src/types.rs 89-113; `encode_fixed(1)` of the length keeps its low
byte. -/
def Leaf.encode (l : Leaf) : List UInt8 :=
  match l.data with
  | .embedded v =>
    unbits (padNode ([true, false] ++ (byteBits (UInt8.ofNat v.length)).drop 2 ++ l.key ++ bits v))
  | .regular h =>
    unbits ([true, true] ++ [false, false, false, false, false, false] ++ l.key ++ bits h)

/-- `slice_bitvec` of a range, state-merkle-v2/src/utils.rs 15-24. -/
def slice (bs : List Bool) (a b : Nat) : Except NodeErr (List Bool) :=
  if a ≤ b ∧ b ≤ bs.length then .ok ((bs.drop a).take (b - a)) else .error .sliceRange

/-- `bitvec_to_hash`, state-merkle-v2/src/utils.rs 26-34. -/
def bitsToHash (bs : List Bool) : Except NodeErr (List UInt8) :=
  if (unbits bs).length = 32 then .ok (unbits bs) else .error .byteLength

/-- The regular leaf of `LeafNode::decode`, state-merkle-v2/src/types.rs 126-134. -/
def decodeRegular (bs : List Bool) : Except NodeErr Leaf :=
  match slice bs 256 bs.length with
  | .error e => .error e
  | .ok hb =>
    match slice bs 8 256 with
    | .error e => .error e
    | .ok kb =>
      match bitsToHash hb with
      | .error e => .error e
      | .ok h => .ok ⟨kb, .regular h⟩

/-- The length byte of an embedded leaf, state-merkle-v2/src/types.rs 137-142. -/
def embeddedLen (bs : List Bool) : Nat := (byteOf ([false, false] ++ (bs.drop 2).take 6)).toNat

/-- The embedded leaf of `LeafNode::decode`, state-merkle-v2/src/types.rs 135-152. -/
def decodeEmbedded (bs : List Bool) : Except NodeErr Leaf :=
  match slice bs 256 (256 + embeddedLen bs * 8) with
  | .error e => .error e
  | .ok vb =>
    match slice bs 8 256 with
    | .error e => .error e
    | .ok kb => .ok ⟨kb, .embedded (unbits vb)⟩

/-- `LeafNode::decode`, state-merkle-v2/src/types.rs 115-155. -/
def Leaf.decode (bs : List Bool) : Except NodeErr Leaf :=
  if bs.length ≠ nodeSizeBits then .error .dataLength
  else match bs[0]?, bs[1]? with
    | some true, some true => decodeRegular bs
    | some true, some false => decodeEmbedded bs
    | _, _ => .error .nodeType

/-- `BranchNode::new`, state-merkle-v2/src/types.rs 189-198, on 32-byte hashes. -/
def Branch.make (left right : List UInt8) : Branch := ⟨(bits left).drop 1, bits right⟩

/-- `BranchNode::update_left`, state-merkle-v2/src/types.rs 200-206. -/
def Branch.updateLeft (b : Branch) (h : List UInt8) : Branch := { b with left := (bits h).drop 1 }

/-- `BranchNode::update_right`, state-merkle-v2/src/types.rs 208-210. -/
def Branch.updateRight (b : Branch) (h : List UInt8) : Branch := { b with right := bits h }

/-- `BranchNode::encode`, state-merkle-v2/src/types.rs 218-223. -/
def Branch.encode (b : Branch) : List UInt8 := unbits ([false] ++ b.left ++ b.right)

/-- `BranchNode::decode`, state-merkle-v2/src/types.rs 225-243. -/
def Branch.decode (bs : List Bool) : Except NodeErr Branch :=
  if bs.length ≠ nodeSizeBits then .error .dataLength
  else if bs[0]? = some true then .error .nodeType
  else match slice bs 1 256 with
    | .error e => .error e
    | .ok l =>
      match slice bs 256 bs.length with
      | .error e => .error e
      | .ok r => .ok ⟨l, r⟩

/-- `MerkleNode::encode` and `into_db_value`, state-merkle-v2/src/types.rs 262-271, 311-316. -/
def Node.encode : Node → List UInt8
  | .leaf l => l.encode
  | .branch b => b.encode

/-- `MerkleNode::from_db_kv`, state-merkle-v2/src/types.rs 273-298. -/
def Node.decode (data : List UInt8) : Except NodeErr Node :=
  match (bits data)[0]? with
  | some true =>
    match Leaf.decode (bits data) with
    | .error e => .error e
    | .ok l => .ok (.leaf l)
  | some false =>
    match Branch.decode (bits data) with
    | .error e => .error e
    | .ok b => .ok (.branch b)
  | none => .error .empty

/-- `MerkleNode::hash`, state-merkle-v2/src/types.rs 318-320, over the hash function `H`. -/
def Node.hash (H : List UInt8 → List UInt8) (n : Node) : List UInt8 := H n.encode

/-- `cache_entry_to_leaf_node_and_state_db_write_set`, state/src/merkle_interface/manager.rs 184-204:
the leaf stored for a key and an encoded value. -/
def mkLeaf (H : List UInt8 → List UInt8) (k : List Bool) (v : List UInt8) : Leaf :=
  if v.length > 32 then ⟨k, .regular (H v)⟩ else ⟨k, .embedded v⟩

/-- `MerklePath` as a database key or value, state-merkle-v2/src/types.rs 345-348, 367-375: one
character per bit. -/
def pathBytes (p : List Bool) : List UInt8 := p.map fun b => if b then 49 else 48

/-- `MerklePath::from_db_key` and `from_db_kv`, state-merkle-v2/src/types.rs 350-363, 377-397. -/
def bytesPath : List UInt8 → Option (List Bool)
  | [] => some []
  | b :: bs =>
    if b = 49 then (bytesPath bs).map (true :: ·)
    else if b = 48 then (bytesPath bs).map (false :: ·)
    else none

end Fastroll.Trie
