import Verif.Trie.NodeLemmas
/-
C33: the encoding of the nodes of the state trie.
-/
namespace Fastroll.Trie

/-- Every well-formed node takes exactly 512 bits and is read back from them, whatever its key, value and
child hashes. -/
theorem C33_nodes_round_trip (n : Node) (h : n.wf = true) :
    n.encode.length = 64 ∧ Node.decode n.encode = .ok n := ⟨encode_length n h, decode_encode n h⟩

/-- A leaf, embedding a five-byte value, and a branch over two different hashes. -/
def exLeaf : Node := .leaf ⟨bits (List.replicate 30 7 ++ [200]), .embedded [1, 2, 3, 255, 0]⟩
def exHashed : Node := .leaf ⟨bits (List.replicate 30 7 ++ [200]), .regular (List.replicate 32 170)⟩
def exBranch : Node := .branch (Branch.make (List.replicate 32 129) (List.replicate 32 3))

example : exLeaf.wf = true ∧ exHashed.wf = true ∧ exBranch.wf = true := by decide +kernel
example : exLeaf.encode ≠ exHashed.encode ∧ (exBranch.encode.take 2, exBranch.encode.drop 62) = ([1, 129], [3, 3]) := by
  decide +kernel

/-- What the trie stores is the encoding the Gray Paper gives for the key, the value and the child
hashes. -/
theorem C33_encoding_is_gray_paper (H : List UInt8 → List UInt8) (hH : ∀ x, (H x).length = 32) :
    (∀ k v, k.length = 248 → Spec.bitString (Node.leaf (mkLeaf H k v)).encode = Spec.leafBits H k v) ∧
    (∀ l r, l.length = 32 → r.length = 32 →
      Spec.bitString (Node.branch (Branch.make l r)).encode = Spec.branchBits l r) := by
  refine ⟨fun k v hk => ?_, fun l r hl hr => ?_⟩
  · rw [bits_spec, bits_encode _ (mkLeaf_wf H hH k v hk), mkLeaf_rawBits H k v hk]
  · rw [bits_spec, bits_encode _ (make_wf l r hl hr), make_rawBits]

example : (Spec.leafBits (fun _ => List.replicate 32 9) (bits (List.replicate 31 5)) (List.replicate 33 1)).length = 512 ∧
    (Spec.leafBits (fun _ => List.replicate 32 9) (bits (List.replicate 31 5)) []).length = 512 := by decide +kernel

/-- No encoding of a leaf is the encoding of a branch, nor is an embedded leaf's one of a hashed leaf;
the encoding determines the node. -/
theorem C33_encodings_never_coincide (a b : Node) (ha : a.wf = true) (hb : b.wf = true) :
    a.encode = b.encode → a = b := encode_inj a b ha hb

example : exLeaf.wf = true ∧ exBranch.wf = true ∧ exLeaf ≠ exBranch := by decide +kernel

/-- Two branches coincide exactly when their right hashes are equal and their left hashes differ at most
in the first bit: that bit is the only thing a branch does not record about its children. -/
theorem C33_branch_forgets_one_bit (l r l' r' : List UInt8) (hl : l.length = 32) (hr : r.length = 32)
    (hl' : l'.length = 32) (hr' : r'.length = 32) :
    (Node.branch (Branch.make l r)).encode = (Node.branch (Branch.make l' r')).encode ↔
      r = r' ∧ (Spec.bitString l).tail = (Spec.bitString l').tail := by
  rw [bits_spec, bits_spec]
  constructor
  · intro h
    have h1 := encode_inj _ _ (make_wf l r hl hr) (make_wf l' r' hl' hr') h
    injection h1 with h1
    injection h1 with h1 h2
    rw [List.drop_one, List.drop_one] at h1
    exact ⟨bits_inj _ _ h2, h1⟩
  · rintro ⟨h1, h2⟩
    have : Branch.make l r = Branch.make l' r' := by
      unfold Branch.make
      rw [List.drop_one, List.drop_one, h2, h1]
    rw [this]

example : (Node.branch (Branch.make (128 :: List.replicate 31 4) (List.replicate 32 3))).encode =
    (Node.branch (Branch.make (0 :: List.replicate 31 4) (List.replicate 32 3))).encode := by decide +kernel

/-- The decoder is total: it refuses with an error or yields a well-formed node, and only from exactly
64 bytes. -/
theorem C33_decoded_nodes_are_well_formed (data : List UInt8) (n : Node) (h : Node.decode data = .ok n) :
    n.wf = true ∧ data.length = 64 := decode_wf h

set_option maxRecDepth 20000 in
example : Node.decode exBranch.encode = .ok exBranch ∧ Node.decode [] = .error .empty ∧
    Node.decode (List.replicate 63 0) = .error .dataLength ∧
    Node.decode (161 :: List.replicate 63 0) = .error .sliceRange := by
  refine ⟨?_, ?_, ?_, ?_⟩
  · exact decode_encode exBranch (by decide +kernel)
  · rfl
  · rfl
  · rfl

set_option maxRecDepth 20000 in
/-- The decoder is not strict: nonzero padding after an embedded value is ignored, so two different
64-byte strings decode to the same leaf. -/
theorem C33_padding_is_not_checked :
    ∃ a b : List UInt8, a ≠ b ∧ ∃ n, Node.decode a = .ok n ∧ Node.decode b = .ok n :=
  ⟨128 :: List.replicate 63 0, 128 :: (List.replicate 62 0 ++ [1]), by decide +kernel,
    .leaf ⟨List.replicate 248 false, .embedded []⟩, by rfl, by rfl⟩

/-- Paths stored as database keys and values are read back, different paths have different
database keys, and nothing but such a key is read as a path. -/
theorem C33_paths_round_trip (p : List Bool) :
    bytesPath (pathBytes p) = some p ∧ (pathBytes p).length = p.length ∧
      (∀ q, pathBytes q = pathBytes p → q = p) ∧ ∀ bs, bytesPath bs = some p → bs = pathBytes p := by
  refine ⟨bytesPath_pathBytes p, List.length_map _, fun q h => ?_, fun bs h => pathBytes_of_bytesPath h⟩
  have h1 := bytesPath_pathBytes q
  rw [h, bytesPath_pathBytes p] at h1
  injection h1 with h1
  exact h1.symm

example : pathBytes [true, false, true] = [49, 48, 49] ∧ bytesPath [49, 50] = none := by decide +kernel

end Fastroll.Trie
