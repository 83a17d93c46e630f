import Verif.Merkle.Lemmas
/-! # Merkle trees (C06) and the Merkle mountain range (C07) -/
namespace Fastroll.Merkle

/-- A stand-in hash for the concrete examples: total, 32 bytes long. -/
def toyHash (b : Bytes) : Bytes :=
  List.replicate 31 0 ++ [b.foldl (fun acc x => acc * 31 + x) 7]

theorem toyHash_length (b : Bytes) : (toyHash b).length = 32 := by simp [toyHash]

/-- **C06, completeness.** For every list of items and every index in it, the path
returned for the index lets a verifier who knows only the item, its index and the number
of items recompute the root. -/
theorem C06_justification_verifies (h : Bytes → Bytes) (data : List Bytes) (idx : Nat) (x : Bytes)
    (hx : data[idx]? = some x) :
    recompute h data.length idx (trace h data idx) x = node h data :=
  recompute_trace h _ data rfl idx x hx

example : recompute toyHash 3 2 (trace toyHash [[1], [2], [3]] 2) [3] = node toyHash [[1], [2], [3]] :=
  C06_justification_verifies toyHash [[1], [2], [3]] 2 [3] rfl

/-- **C06, size.** A path never has more than `k` entries for up to `2^k` items. -/
theorem C06_justification_length (h : Bytes → Bytes) (data : List Bytes) (idx k : Nat)
    (hk : data.length ≤ 2 ^ k) : (trace h data idx).length ≤ k :=
  trace_length_le h _ data rfl idx k hk

/-- **C06, binding.** Suppose an opening (a 32-byte leaf and a path of 32-byte nodes of
the right length) is accepted against the root of some 32-byte items. Then the leaf is
the item at that index and the path is the genuine one, unless the accepted strings
exhibit a concrete hash collision. -/
theorem C06_justification_binding (h : Bytes → Bytes) (hh : ∀ b, (h b).length = 32)
    (data : List Bytes) (hd : ∀ d ∈ data, d.length = 32) (idx : Nat) (x : Bytes)
    (hx : data[idx]? = some x) (leaf : Bytes) (path : List Bytes) (hleaf : leaf.length = 32)
    (hpath : ∀ s ∈ path, s.length = 32) (hlen : path.length = (trace h data idx).length)
    (hacc : recompute h data.length idx path leaf = node h data) :
    (leaf = x ∧ path = trace h data idx) ∨
    ∃ a ∈ verifierInputs h data.length idx path leaf,
      ∃ b ∈ verifierInputs h data.length idx (trace h data idx) x, a ≠ b ∧ h a = h b := by
  rw [← C06_justification_verifies h data idx x hx] at hacc
  exact openings_agree h hh path _ _ _ leaf x hlen hleaf
    (hd x (List.mem_of_getElem? hx)) hpath (trace_items_length h hh _ data rfl hd idx) hacc

example : ∃ (data : List Bytes) (x : Bytes), (∀ d ∈ data, d.length = 32) ∧ data[1]? = some x ∧
    2 ≤ data.length ∧ recompute toyHash data.length 1 (trace toyHash data 1) x = node toyHash data :=
  ⟨[zeroHash, toyHash [1], toyHash [2]], toyHash [1], by simp [zeroHash, toyHash], rfl, by simp,
    C06_justification_verifies _ _ _ _ rfl⟩

/-- **C06, pages.** For the constant-depth tree, with pages of `2^depth` leaves no deeper
than the tree: the page justification lets a verifier recompute the tree's root from the
root of the page alone, and has exactly as many nodes as there are levels above it. -/
theorem C06_page_justification (h : Bytes → Bytes) (data : List Bytes) (hne : data ≠ [])
    (page depth : Nat) (hdep : depth ≤ (nextPow2 data.length).log2)
    (hpage : 2 ^ depth * page < nextPow2 data.length) :
    (pageJustification h data page depth).length = (nextPow2 data.length).log2 - depth ∧
    recompute h (nextPow2 data.length) (2 ^ depth * page) (pageJustification h data page depth)
      (node h (((preprocess h data).drop (2 ^ depth * page)).take (2 ^ depth))) =
      constantRoot h data := by
  have hp := preprocess_length h data
  have hpow := nextPow2_pow data.length
  generalize hk : (nextPow2 data.length).log2 = k at hdep hpow
  have hk' : k = depth + (k - depth) := by omega
  have hpage' : page < 2 ^ (k - depth) := by
    rw [hpow, hk', Nat.pow_add] at hpage
    exact Nat.lt_of_mul_lt_mul_left (by simpa using hpage)
  obtain ⟨h1, h2⟩ := recompute_page h depth (k - depth) (preprocess h data)
    (by rw [hp, hpow, ← hk']) page hpage'
  have hj : pageJustification h data page depth =
      (trace h (preprocess h data) (2 ^ depth * page)).take (k - depth) := by
    unfold pageJustification resize
    rw [hk, h1, show k - depth - (depth + (k - depth)) = 0 by omega]
    simp
  refine ⟨?_, ?_⟩
  · rw [hj, List.length_take, h1]; omega
  · rw [hj, ← hp, h2]
    unfold constantRoot
    cases data with
    | nil => exact absurd rfl hne
    | cons a t => rfl

example : 1 ≤ (nextPow2 [[(1 : UInt8)], [2], [3]].length).log2 ∧
    2 ^ 1 * 1 < nextPow2 [[(1 : UInt8)], [2], [3]].length := by decide

/-- **C06, pages.** The leaf hashes handed out for a page, padded with zero hashes, are
exactly the leaves of that page in the tree. -/
theorem C06_page_leaves (h : Bytes → Bytes) (data : List Bytes) (hne : data ≠ [])
    (page depth : Nat) (hdep : depth ≤ (nextPow2 data.length).log2)
    (hstart : 2 ^ depth * page ≤ data.length) (hpage : 2 ^ depth * page < nextPow2 data.length) :
    ∃ leaves, pageLeafHashes h data page depth = some leaves ∧
      leaves ++ List.replicate (2 ^ depth - leaves.length) zeroHash =
        ((preprocess h data).drop (2 ^ depth * page)).take (2 ^ depth) := by
  unfold pageLeafHashes
  rw [if_pos (Nat.le_min.mpr ⟨hstart, Nat.le_add_right _ _⟩)]
  refine ⟨_, rfl, ?_⟩
  have hle := le_nextPow2 data.length
  have hend : 2 ^ depth * page + 2 ^ depth ≤ nextPow2 data.length := by
    have hpow := nextPow2_pow data.length
    generalize (nextPow2 data.length).log2 = k at hdep hpow
    rw [hpow, show k = depth + (k - depth) by omega, Nat.pow_add] at hpage ⊢
    rw [← Nat.mul_succ]
    exact Nat.mul_le_mul_left _ (Nat.lt_of_mul_lt_mul_left hpage)
  have hpre : preprocess h data = data.map (fun item => h (leafPrefix ++ item)) ++
      List.replicate (nextPow2 data.length - data.length) zeroHash := by
    cases data with
    | nil => exact absurd rfl hne
    | cons a t => rfl
  rw [hpre, List.drop_append_of_le_length (by simpa using hstart), List.take_append]
  generalize hs : 2 ^ depth * page = s at *
  generalize 2 ^ depth = z at *
  simp only [List.length_map, List.length_drop, List.length_take, List.take_replicate]
  congr 1
  · rw [List.map_drop, List.map_take, List.drop_take]
    by_cases hc : s + z ≤ data.length
    · rw [Nat.min_eq_right hc]; congr 1; omega
    · rw [Nat.min_eq_left (by omega), List.take_of_length_le (by simp),
        List.take_of_length_le (by simp; omega)]
  · congr 1; omega

/-! ## Mountain range -/

/-- **C07.** After appending any sequence of leaves the peaks are those of a binary
counter: there are as many slots as the leaf count has binary digits, slot `i` is filled
iff digit `i` of the count is one, and it then holds the perfect-tree value of exactly
the run of `2^i` leaves that digit stands for, the older leaves under the higher digits. -/
theorem C07_binary_counter (h : Bytes → Bytes) (leaves : List Bytes) :
    leaves.length < 2 ^ (mmrOf h leaves).length ∧
    (leaves ≠ [] → 2 ^ ((mmrOf h leaves).length - 1) ≤ leaves.length) ∧
    ∀ i (hi : i < (mmrOf h leaves).length), (mmrOf h leaves)[i] =
      if digit leaves.length i then
        some (perfect h i ((leaves.drop (runStart leaves.length i)).take (2 ^ i)))
      else none := by
  have hr := rep_mmrOf h leaves [] [] (Rep.nil 0)
  obtain ⟨m, h1, h2, h3, h4, h5⟩ := rep_facts h hr
  simp only [List.nil_append, Nat.pow_zero, Nat.one_mul, Nat.zero_add] at h1 h5
  subst h1
  refine ⟨h3, ?_, h5⟩
  intro hne
  refine h4 ?_
  intro h0
  exact hne (List.length_eq_zero_iff.mp (h2.mp (by rw [h0]; rfl)))

example : (mmrOf toyHash [[1], [2], [3], [4], [5]]).length = 3 := by decide

/-- **C07.** Appending never rewrites history: the number of leaves recorded by the range
grows by exactly one with each append. -/
theorem C07_count (h : Bytes → Bytes) (leaves : List Bytes) :
    ((mmrOf h leaves).zipIdx.map fun p => if p.1.isSome then 2 ^ p.2 else 0).sum = leaves.length := by
  have hr := rep_mmrOf h leaves [] [] (Rep.nil 0)
  have key : ∀ {i ps xs}, Rep h i ps xs →
      ((ps.zipIdx i).map fun p => if p.1.isSome then 2 ^ p.2 else 0).sum = xs.length := by
    intro i ps xs hr
    induction hr with
    | nil i => rfl
    | zero _ _ ih => simpa using ih
    | one _ hb ih => simp [ih, hb]; omega
  have := key hr
  simpa [mmrOf] using this

/-- **C07.** The recursive variant of `append` computes the same peaks as the loop. -/
theorem C07_recursive_agrees (h : Bytes → Bytes) (peaks : List (Option Bytes)) (leaf : Bytes) :
    mmrAppendRec h peaks leaf 0 = mmrAppend h peaks leaf := by
  simpa using mmrAppendRec_eq h [] peaks leaf

/-- **C07, negation.** The `==` of mountain ranges compares super-peaks only, so ranges
with different numbers of leaves can be equal: any two leaves, and one leaf that is their
parent. (The super-peak is meant for commitment; the equality is not injective.) -/
theorem C07_eq_confuses_sizes (h k : Bytes → Bytes) (a b : Bytes) :
    mmrEq k (mmrOf h [a, b]) (mmrOf h [h (a ++ b)]) = true ∧
    mmrOf h [a, b] ≠ mmrOf h [h (a ++ b)] := by
  constructor
  · simp [mmrEq, mmrOf, mmrAppend, superPeak]
  · simp [mmrOf, mmrAppend]

end Fastroll.Merkle
