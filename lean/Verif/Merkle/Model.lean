/-!
# Model of the Merkle trees and the Merkle mountain range

Transcribes `/repo/merkle/src/{common,well_balanced_tree,constant_depth_tree,mmr}.rs`.
The hash function (Blake2b or Keccak in the code) is the parameter `h`, a function on
byte strings; both `MerkleData` instances (lines 25-43) are byte strings here.
Hashing errors (`CryptoError`) cannot occur for these inputs and are not modelled.
-/
namespace Fastroll.Merkle

abbrev Bytes := List UInt8

/-- `Hash32::default()`. -/
def zeroHash : Bytes := List.replicate 32 0

/-- `b"node"`, common.rs line 48. -/
def nodePrefix : Bytes := [0x6e, 0x6f, 0x64, 0x65]
/-- `b"leaf"`, constant_depth_tree.rs line 17. -/
def leafPrefix : Bytes := [0x6c, 0x65, 0x61, 0x66]
/-- `b"peak"`, mmr.rs line 148. -/
def peakPrefix : Bytes := [0x70, 0x65, 0x61, 0x6b]

/-- `len.div_ceil(2)`. -/
def mid (n : Nat) : Nat := (n + 1) / 2

/-- `node`, common.rs lines 47-61. -/
def node (h : Bytes → Bytes) (data : List Bytes) : Bytes :=
  if _h0 : data.length = 0 then zeroHash
  else if _h1 : data.length = 1 then data.headD zeroHash
  else
    let left := node h (data.take (mid data.length))
    let right := node h (data.drop (mid data.length))
    h (nodePrefix ++ left ++ right)
termination_by data.length
decreasing_by all_goals (simp [mid]; omega)

/-- `split_and_select`, common.rs lines 67-74. -/
def splitAndSelect (data : List Bytes) (idx : Nat) (idxSide : Bool) : List Bytes :=
  if (decide (idx < mid data.length)) = idxSide then data.take (mid data.length)
  else data.drop (mid data.length)

/-- `merkle_index_offset`, common.rs lines 78-85. -/
def indexOffset (data : List Bytes) (idx : Nat) : Nat :=
  if idx < mid data.length then 0 else mid data.length

theorem splitAndSelect_lt (data : List Bytes) (idx : Nat) (b : Bool) (hd : ¬ data.length ≤ 1) :
    (splitAndSelect data idx b).length < data.length := by
  unfold splitAndSelect mid; split <;> simp <;> omega

/-- `trace`, common.rs lines 90-107. -/
def trace (h : Bytes → Bytes) (data : List Bytes) (idx : Nat) : List Bytes :=
  if hd : data.length ≤ 1 then []
  else
    node h (splitAndSelect data idx false) ::
      trace h (splitAndSelect data idx true) (idx - indexOffset data idx)
termination_by data.length
decreasing_by exact splitAndSelect_lt data idx true hd

/-- `WellBalancedMerkleTree::compute_root`, well_balanced_tree.rs lines 15-24.
`Hash32::decode` of the root node takes its first 32 bytes; with two or more items the
node is a hash, so nothing is cut. -/
def balancedRoot (h : Bytes → Bytes) (data : List Bytes) : Bytes :=
  match data with
  | [] => zeroHash
  | [x] => h x
  | _ => node h data

/-- `usize::next_power_of_two`. -/
def nextPow2 (n : Nat) : Nat := if n ≤ 1 then 1 else 2 ^ ((n - 1).log2 + 1)

/-- `constancy_preprocess`, constant_depth_tree.rs lines 16-32. -/
def preprocess (h : Bytes → Bytes) (data : List Bytes) : List Bytes :=
  match data with
  | [] => [zeroHash]
  | _ => data.map (fun item => h (leafPrefix ++ item)) ++
      List.replicate (nextPow2 data.length - data.length) zeroHash

/-- `ConstantDepthMerkleTree::compute_root`, lines 35-45. -/
def constantRoot (h : Bytes → Bytes) (data : List Bytes) : Bytes :=
  match data with
  | [] => zeroHash
  | _ => node h (preprocess h data)

/-- `Vec::resize` with the zero hash. -/
def resize (l : List Bytes) (n : Nat) : List Bytes :=
  l.take n ++ List.replicate (n - l.length) zeroHash

/-- `single_page_justification`, lines 49-62. -/
def pageJustification (h : Bytes → Bytes) (data : List Bytes) (page depth : Nat) : List Bytes :=
  resize (trace h (preprocess h data) (2 ^ depth * page)) ((nextPow2 data.length).log2 - depth)

/-- `subtree_page_leaf_hashes`, lines 65-81; `none` is the slice panic when the page
starts beyond the data. -/
def pageLeafHashes (h : Bytes → Bytes) (data : List Bytes) (page depth : Nat) : Option (List Bytes) :=
  let start := 2 ^ depth * page
  let stop := min data.length (start + 2 ^ depth)
  if start ≤ stop then
    some (((data.take stop).drop start).map fun item => h (leafPrefix ++ item))
  else none

/-! ## Mountain range -/

/-- `MerkleMountainRange::append`, mmr.rs lines 83-115. The loop walks the peaks from
index 0; the recursion carries the peaks from the current index on. -/
def mmrAppend (h : Bytes → Bytes) : List (Option Bytes) → Bytes → List (Option Bytes)
  | [], root => [some root]
  | none :: ps, root => some root :: ps
  | some old :: ps, root => none :: mmrAppend h ps (h (old ++ root))

/-- `append_recursive`, lines 119-138, with its explicit index into the whole vector. -/
def mmrAppendRec (h : Bytes → Bytes) (peaks : List (Option Bytes)) (root : Bytes) (index : Nat) :
    List (Option Bytes) :=
  if hge : index ≥ peaks.length then peaks ++ [some root]
  else match peaks[index]'(by omega) with
    | none => peaks.set index (some root)
    | some old => mmrAppendRec h (peaks.set index none) (h (old ++ root)) (index + 1)
termination_by peaks.length - index
decreasing_by simp; omega

/-- Appending a sequence of leaves to the empty range (`new`, lines 69-74). -/
def mmrOf (h : Bytes → Bytes) (leaves : List Bytes) : List (Option Bytes) :=
  leaves.foldl (mmrAppend h) []

/-- `super_peak`, lines 141-154; `k` is Keccak-256 whatever the range's own hasher is. -/
def superPeak (k : Bytes → Bytes) (peaks : List (Option Bytes)) : Bytes :=
  match peaks.filterMap id with
  | [] => zeroHash
  | p :: ps => ps.foldl (fun acc peak => k (peakPrefix ++ acc ++ peak)) p

/-- `PartialEq`, lines 30-36. -/
def mmrEq (k : Bytes → Bytes) (a b : List (Option Bytes)) : Bool :=
  superPeak k a == superPeak k b

end Fastroll.Merkle
