import Verif.Trie.NodeModel
import Verif.Trie.NodeSpec
namespace Fastroll.Trie

theorem byteBits_length (b : UInt8) : (byteBits b).length = 8 := rfl

theorem byteOf_byteBits : ∀ b : UInt8, byteOf (byteBits b) = b := by
  have : ∀ n : Fin 256, byteOf (byteBits (UInt8.ofNat n.val)) = UInt8.ofNat n.val := by decide +kernel
  intro b
  have h := this ⟨b.toNat, b.toNat_lt⟩
  simpa using h

theorem byteBits_byteOf : ∀ b0 b1 b2 b3 b4 b5 b6 b7 : Bool,
    byteBits (byteOf [b0, b1, b2, b3, b4, b5, b6, b7]) = [b0, b1, b2, b3, b4, b5, b6, b7] := by
  decide +kernel

@[simp] theorem bits_nil : bits [] = [] := rfl
@[simp] theorem bits_cons (b : UInt8) (bs : List UInt8) : bits (b :: bs) = byteBits b ++ bits bs := rfl

theorem bits_length (bs : List UInt8) : (bits bs).length = 8 * bs.length := by
  induction bs with
  | nil => rfl
  | cons b bs ih => rw [bits_cons, List.length_append, ih, byteBits_length, List.length_cons]; omega

theorem unbits_byteBits (b : UInt8) (r : List Bool) : unbits (byteBits b ++ r) = b :: unbits r := by
  show byteOf (byteBits b) :: unbits r = _
  rw [byteOf_byteBits]

theorem unbits_bits (bs : List UInt8) : unbits (bits bs) = bs := by
  induction bs with
  | nil => rfl
  | cons b bs ih => rw [bits_cons, unbits_byteBits, ih]

theorem bits_unbits (n : Nat) (bs : List Bool) (h : bs.length = 8 * n) : bits (unbits bs) = bs := by
  induction n generalizing bs with
  | zero =>
    have : bs = [] := List.length_eq_zero_iff.1 (by omega)
    subst this; rfl
  | succ n ih =>
    match bs, h with
    | b0 :: b1 :: b2 :: b3 :: b4 :: b5 :: b6 :: b7 :: r, h =>
      have hr : r.length = 8 * n := by simp only [List.length_cons] at h; omega
      show bits (byteOf [b0, b1, b2, b3, b4, b5, b6, b7] :: unbits r) = _
      rw [bits_cons, byteBits_byteOf, ih r hr]
      rfl

theorem unbits_length (n : Nat) (bs : List Bool) (h : bs.length = 8 * n) : (unbits bs).length = n := by
  have h1 := congrArg List.length (bits_unbits n bs h)
  rw [bits_length, h] at h1
  omega

theorem unbits_inj (n : Nat) (a b : List Bool) (ha : a.length = 8 * n) (hb : b.length = 8 * n)
    (h : unbits a = unbits b) : a = b := by
  rw [← bits_unbits n a ha, ← bits_unbits n b hb, h]

theorem bits_inj (a b : List UInt8) (h : bits a = bits b) : a = b := by
  rw [← unbits_bits a, ← unbits_bits b, h]

theorem byteBits_spec : ∀ b : UInt8,
    byteBits b = (List.range 8).map fun i => decide (b.toNat / 2 ^ (7 - i) % 2 = 1) := by
  have : ∀ n : Fin 256, byteBits (UInt8.ofNat n.val) =
      (List.range 8).map fun i => decide ((UInt8.ofNat n.val).toNat / 2 ^ (7 - i) % 2 = 1) := by
    decide +kernel
  intro b
  have h := this ⟨b.toNat, b.toNat_lt⟩
  simpa using h

theorem bits_spec (bs : List UInt8) : Spec.bitString bs = bits bs := by
  unfold Spec.bitString bits
  congr 1
  funext b
  exact (byteBits_spec b).symm

/-- The six length bits. -/
theorem lenBits_spec : ∀ n : Nat, n ≤ 32 →
    (byteBits (UInt8.ofNat n)).drop 2 = (List.range 6).map fun i => decide (n / 2 ^ (5 - i) % 2 = 1) := by
  have : ∀ n : Fin 33, (byteBits (UInt8.ofNat n.val)).drop 2 =
      (List.range 6).map fun i => decide (n.val / 2 ^ (5 - i) % 2 = 1) := by decide +kernel
  intro n hn
  exact this ⟨n, by omega⟩

theorem byteOf_lenBits : ∀ n : Nat, n ≤ 32 →
    (byteOf ([false, false] ++ (byteBits (UInt8.ofNat n)).drop 2)).toNat = n := by
  have : ∀ n : Fin 33, (byteOf ([false, false] ++ (byteBits (UInt8.ofNat n.val)).drop 2)).toNat = n.val := by
    decide +kernel
  intro n hn
  exact this ⟨n, by omega⟩

/-! ### Well-formed nodes -/

/-- The nodes the trie stores: 248-bit keys, embedded values of at most 32 bytes, 32-byte hashes, 255
and 256 bits of child hashes. -/
def Node.wf : Node → Bool
  | .leaf ⟨k, .embedded v⟩ => k.length = 248 ∧ v.length ≤ 32
  | .leaf ⟨k, .regular h⟩ => k.length = 248 ∧ h.length = 32
  | .branch b => b.left.length = 255 ∧ b.right.length = 256

/-- The 512 bits of a node. -/
def Node.rawBits : Node → List Bool
  | .leaf ⟨k, .embedded v⟩ => padNode ([true, false] ++ (byteBits (UInt8.ofNat v.length)).drop 2 ++ k ++ bits v)
  | .leaf ⟨k, .regular h⟩ => [true, true] ++ [false, false, false, false, false, false] ++ k ++ bits h
  | .branch b => [false] ++ b.left ++ b.right

theorem encode_eq (n : Node) : n.encode = unbits n.rawBits := by
  cases n with
  | leaf l => obtain ⟨k, d⟩ := l; cases d <;> rfl
  | branch b => rfl

theorem rawBits_length (n : Node) (h : n.wf = true) : n.rawBits.length = 512 := by
  cases n with
  | leaf l =>
    obtain ⟨k, d⟩ := l
    cases d with
    | embedded v =>
      simp only [Node.wf, decide_eq_true_eq] at h
      simp only [Node.rawBits, padNode, List.length_append, List.length_replicate, bits_length, nodeSizeBits,
        List.length_drop, byteBits_length, h.1, List.length_cons, List.length_nil]
      omega
    | regular x =>
      simp only [Node.wf, decide_eq_true_eq] at h
      simp only [Node.rawBits, List.length_append, bits_length, h.1, h.2, List.length_cons, List.length_nil]
  | branch b =>
    simp only [Node.wf, decide_eq_true_eq] at h
    simp only [Node.rawBits, List.length_append, h.1, h.2, List.length_cons, List.length_nil]

theorem bits_encode (n : Node) (h : n.wf = true) : bits n.encode = n.rawBits := by
  rw [encode_eq, bits_unbits 64 _ (rawBits_length n h)]

theorem slice_append (a b c : List Bool) (n m : Nat) (h1 : a.length = n) (h2 : b.length = m) :
    slice (a ++ b ++ c) n (n + m) = .ok b := by
  unfold slice
  rw [if_pos (by simp only [List.length_append]; omega)]
  subst h1; subst h2
  rw [List.append_assoc, List.drop_left, Nat.add_sub_cancel_left, List.take_left]

theorem slice_end (a b : List Bool) (n : Nat) (h1 : a.length = n) :
    slice (a ++ b) n (a ++ b).length = .ok b := by
  have := slice_append a b [] n b.length h1 rfl
  rw [List.append_nil] at this
  rw [List.length_append, h1]
  exact this

theorem decode_encode (n : Node) (h : n.wf = true) : Node.decode n.encode = .ok n := by
  have hlen := rawBits_length n h
  unfold Node.decode
  rw [bits_encode n h]
  cases n with
  | leaf l =>
    obtain ⟨k, d⟩ := l
    cases d with
    | embedded v =>
      simp only [Node.wf, decide_eq_true_eq] at h
      have h0 : (Node.rawBits (.leaf ⟨k, .embedded v⟩))[0]? = some true := rfl
      have h1 : (Node.rawBits (.leaf ⟨k, .embedded v⟩))[1]? = some false := rfl
      rw [h0]
      dsimp only
      unfold Leaf.decode
      rw [if_neg (by rw [hlen]; decide), h0, h1]
      dsimp only
      unfold decodeEmbedded
      have hl : embeddedLen (Node.rawBits (.leaf ⟨k, .embedded v⟩)) = v.length := by
        have : ((Node.rawBits (.leaf ⟨k, .embedded v⟩)).drop 2).take 6 = (byteBits (UInt8.ofNat v.length)).drop 2 := rfl
        unfold embeddedLen
        rw [this, byteOf_lenBits _ h.2]
      have hform : Node.rawBits (.leaf ⟨k, .embedded v⟩) =
          ([true, false] ++ (byteBits (UInt8.ofNat v.length)).drop 2) ++ k ++
            (bits v ++ List.replicate (nodeSizeBits - ([true, false] ++ (byteBits (UInt8.ofNat v.length)).drop 2 ++ k ++ bits v).length) false) := by
        show padNode _ = _
        unfold padNode
        rw [List.append_assoc _ (bits v)]
      have hk : slice (Node.rawBits (.leaf ⟨k, .embedded v⟩)) 8 256 = .ok k := by
        rw [hform]
        exact slice_append _ k _ 8 248 rfl h.1
      have hv : slice (Node.rawBits (.leaf ⟨k, .embedded v⟩)) 256 (256 + v.length * 8) = .ok (bits v) := by
        rw [hform, ← List.append_assoc]
        refine slice_append _ (bits v) _ 256 (v.length * 8) ?_ (by rw [bits_length]; omega)
        rw [List.length_append, h.1]; rfl
      rw [hl, hv]
      dsimp only
      rw [hk]
      dsimp only
      rw [unbits_bits]
    | regular x =>
      simp only [Node.wf, decide_eq_true_eq] at h
      have h0 : (Node.rawBits (.leaf ⟨k, .regular x⟩))[0]? = some true := rfl
      have h1 : (Node.rawBits (.leaf ⟨k, .regular x⟩))[1]? = some true := rfl
      rw [h0]
      dsimp only
      unfold Leaf.decode
      rw [if_neg (by rw [hlen]; decide), h0, h1]
      dsimp only
      unfold decodeRegular
      have hk : slice (Node.rawBits (.leaf ⟨k, .regular x⟩)) 8 256 = .ok k :=
        slice_append _ k _ 8 248 rfl h.1
      have hv : slice (Node.rawBits (.leaf ⟨k, .regular x⟩)) 256 (Node.rawBits (.leaf ⟨k, .regular x⟩)).length = .ok (bits x) := by
        refine slice_end _ (bits x) 256 ?_
        rw [List.length_append, h.1]; rfl
      rw [hv]
      dsimp only
      rw [hk]
      dsimp only
      unfold bitsToHash
      rw [unbits_bits, if_pos h.2]
  | branch b =>
    simp only [Node.wf, decide_eq_true_eq] at h
    have h0 : (Node.rawBits (.branch b))[0]? = some false := rfl
    rw [h0]
    dsimp only
    unfold Branch.decode
    rw [if_neg (by rw [hlen]; decide), h0, if_neg (by simp)]
    have hl : slice (Node.rawBits (.branch b)) 1 256 = .ok b.left :=
      slice_append [false] b.left b.right 1 255 rfl h.1
    have hr : slice (Node.rawBits (.branch b)) 256 (Node.rawBits (.branch b)).length = .ok b.right := by
      refine slice_end ([false] ++ b.left) b.right 256 ?_
      rw [List.length_append, h.1]; rfl
    rw [hl]
    dsimp only
    rw [hr]

theorem mkLeaf_rawBits (H : List UInt8 → List UInt8) (k : List Bool) (v : List UInt8) (hk : k.length = 248) :
    (Node.leaf (mkLeaf H k v)).rawBits = Spec.leafBits H k v := by
  unfold mkLeaf Spec.leafBits
  by_cases h : v.length ≤ 32
  · rw [if_neg (by omega), if_pos h]
    show padNode _ = _
    unfold padNode
    rw [lenBits_spec _ h, bits_spec]
    have : nodeSizeBits - ([true, false] ++ (List.map (fun i => decide (v.length / 2 ^ (5 - i) % 2 = 1)) (List.range 6)) ++ k ++ bits v).length
        = 256 - 8 * v.length := by
      simp only [List.length_append, bits_length, hk, List.length_cons, List.length_nil, List.length_map,
        List.length_range, nodeSizeBits]
      omega
    rw [this]
  · rw [if_pos (by omega), if_neg h, bits_spec]
    rfl

theorem make_rawBits (l r : List UInt8) : (Node.branch (Branch.make l r)).rawBits = Spec.branchBits l r := by
  unfold Spec.branchBits
  rw [bits_spec, bits_spec]
  show [false] ++ (bits l).drop 1 ++ bits r = _
  rw [List.drop_one]
  rfl

theorem bytesPath_pathBytes (p : List Bool) : bytesPath (pathBytes p) = some p := by
  induction p with
  | nil => rfl
  | cons b p ih =>
    show bytesPath ((if b then 49 else 48) :: pathBytes p) = _
    cases b
    · simp [bytesPath, ih]
    · simp [bytesPath, ih]

theorem pathBytes_of_bytesPath {bs : List UInt8} {p : List Bool} (h : bytesPath bs = some p) : bs = pathBytes p := by
  induction bs generalizing p with
  | nil => injection h with h; subst h; rfl
  | cons b bs ih =>
    unfold bytesPath at h
    by_cases h1 : b = 49
    · rw [if_pos h1] at h
      obtain ⟨q, hq, rfl⟩ := Option.map_eq_some_iff.1 h
      rw [ih hq, h1]; rfl
    · rw [if_neg h1] at h
      by_cases h2 : b = 48
      · rw [if_pos h2] at h
        obtain ⟨q, hq, rfl⟩ := Option.map_eq_some_iff.1 h
        rw [ih hq, h2]; rfl
      · rw [if_neg h2] at h; cases h

theorem slice_ok {bs r : List Bool} {a b : Nat} (h : slice bs a b = .ok r) : r.length = b - a ∧ b ≤ bs.length := by
  unfold slice at h
  split at h
  · rename_i hc
    injection h with h
    subst h
    rw [List.length_take, List.length_drop]
    omega
  · cases h

/-- What the decoder accepts is a well-formed node of exactly 64 bytes. -/
theorem decode_wf {data : List UInt8} {n : Node} (h : Node.decode data = .ok n) :
    n.wf = true ∧ data.length = 64 := by
  unfold Node.decode at h
  split at h
  · split at h
    · cases h
    · rename_i l hl
      injection h with h
      subst h
      unfold Leaf.decode at hl
      split at hl
      · cases hl
      · rename_i hlen
        have hlen' : (bits data).length = 512 := Decidable.not_not.1 hlen
        have h64 : data.length = 64 := by rw [bits_length] at hlen'; omega
        split at hl
        · unfold decodeRegular at hl
          split at hl
          · cases hl
          · rename_i hb hhb
            split at hl
            · cases hl
            · rename_i kb hkb
              unfold bitsToHash at hl
              by_cases hh : (unbits hb).length = 32
              · rw [if_pos hh] at hl
                injection hl with hl
                subst hl
                refine ⟨?_, h64⟩
                simp only [Node.wf, decide_eq_true_eq]
                exact ⟨(slice_ok hkb).1, hh⟩
              · rw [if_neg hh] at hl; cases hl
        · unfold decodeEmbedded at hl
          split at hl
          · cases hl
          · rename_i vb hvb
            split at hl
            · cases hl
            · rename_i kb hkb
              injection hl with hl
              subst hl
              refine ⟨?_, h64⟩
              simp only [Node.wf, decide_eq_true_eq]
              have hv := slice_ok hvb
              refine ⟨(slice_ok hkb).1, ?_⟩
              rw [unbits_length (embeddedLen (bits data)) vb (by omega)]
              omega
        · cases hl
  · split at h
    · cases h
    · rename_i b hb
      injection h with h
      subst h
      unfold Branch.decode at hb
      split at hb
      · cases hb
      · rename_i hlen
        have hlen' : (bits data).length = 512 := Decidable.not_not.1 hlen
        have h64 : data.length = 64 := by rw [bits_length] at hlen'; omega
        split at hb
        · cases hb
        · split at hb
          · cases hb
          · rename_i l hl
            split at hb
            · cases hb
            · rename_i r hr
              injection hb with hb
              subst hb
              refine ⟨?_, h64⟩
              simp only [Node.wf, decide_eq_true_eq]
              have h1 := slice_ok hl
              have h2 := slice_ok hr
              exact ⟨by omega, by omega⟩
  · cases h

theorem encode_length (n : Node) (h : n.wf = true) : n.encode.length = 64 := by
  rw [encode_eq]; exact unbits_length 64 _ (rawBits_length n h)

theorem encode_inj (a b : Node) (ha : a.wf = true) (hb : b.wf = true) (h : a.encode = b.encode) : a = b := by
  have h1 := decode_encode a ha
  rw [h, decode_encode b hb] at h1
  injection h1 with h1
  exact h1.symm

theorem mkLeaf_wf (H : List UInt8 → List UInt8) (hH : ∀ x, (H x).length = 32) (k : List Bool) (v : List UInt8)
    (hk : k.length = 248) : (Node.leaf (mkLeaf H k v)).wf = true := by
  unfold mkLeaf
  split
  · simp only [Node.wf, decide_eq_true_eq]; exact ⟨hk, hH v⟩
  · simp only [Node.wf, decide_eq_true_eq]; exact ⟨hk, by omega⟩

theorem make_wf (l r : List UInt8) (hl : l.length = 32) (hr : r.length = 32) :
    (Node.branch (Branch.make l r)).wf = true := by
  simp only [Node.wf, Branch.make, decide_eq_true_eq, List.length_drop, bits_length, hl, hr, and_self]

end Fastroll.Trie
