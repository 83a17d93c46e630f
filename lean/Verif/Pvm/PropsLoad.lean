import Verif.Pvm.LoadLemmas2
/-!
# C42: loading arbitrary code
-/
namespace Fastroll.Pvm

/-- **What loads.** Code whose every instruction has its operand bytes, and at most 15 of them, loads.
Partial: the paper gives every code a meaning, so this should need no condition; the next three
theorems show that without them the loader fails or crashes. -/
theorem C42_loads_partial (code : List UInt8) (mask : List Bool) (table : List Nat)
    (hlen : mask.length = code.length)
    (h : ∀ i d, StartsAt mask i → IsSkip mask code.length i d → Complete code i d ∧ d ≤ 15) :
    ∃ p, loadParts code mask table = .ok p := by
  have hd : ∀ i : Nat, mask[i]? = some true →
      ∃ ins, decodeAt code (skipDistances mask code.length) (0 + i) = .ok ins := by
    intro i hi
    obtain ⟨d, hs⟩ := isSkip_exists (mask := mask) (len := code.length) (i := i)
      (by rw [← hlen]; exact (List.getElem?_eq_some_iff.1 hi).1)
    obtain ⟨hc, h15⟩ := h i d hi hs
    rw [Nat.zero_add]
    exact (decodeAt_cases hs (skipAt_of_isSkip hs)).1 hc h15
  obtain ⟨⟨dec, look⟩, hr⟩ := decodeLoop_ok code _ mask 0 [] (List.replicate code.length none) hd
  unfold loadParts
  simp only [hr]
  exact ⟨_, rfl⟩

/-- A register move with its operand byte, then a trap. -/
example : ∃ p, loadParts [100, 0x21, 0] [true, false, true] [] = .ok p ∧
    Complete [100, 0x21, 0] 0 1 ∧ ¬ Complete [100, 0x21, 0] 0 0 := ⟨_, rfl, by decide, by decide⟩

/-- **The loader crashes** on the first instruction whose operand bytes are missing: it slices past the
instruction's bytes. -/
theorem C42_missing_operand_panics (code : List UInt8) (mask : List Bool) (table : List Nat) (i d : Nat)
    (hi : StartsAt mask i) (hs : IsSkip mask code.length i d) (hd : d ≤ 15) (hbad : ¬ Complete code i d)
    (hlen : mask.length = code.length)
    (hbefore : ∀ j e, j < i → StartsAt mask j → IsSkip mask code.length j e → Complete code j e ∧ e ≤ 15) :
    loadParts code mask table = .error .panic := by
  unfold loadParts
  simp only []
  rw [decodeLoop_first_panic code _ mask 0 [] _ i .panic hi
    (by rw [Nat.zero_add]; exact (decodeAt_cases hs (skipAt_of_isSkip hs)).2.1 hbad hd)]
  intro j hj hbj
  obtain ⟨e, he⟩ := isSkip_exists (mask := mask) (len := code.length) (i := j)
    (by rw [← hlen]; exact (List.getElem?_eq_some_iff.1 hbj).1)
  obtain ⟨hc, h15⟩ := hbefore j e hj hbj he
  rw [Nat.zero_add]
  exact (decodeAt_cases he (skipAt_of_isSkip he)).1 hc h15

/-- The five-octet program with the single instruction `move_reg` and no operand crashes the loader. -/
example : loadProgram [0, 0, 1, 100, 1] = .error .panic := by decide

/-- **Long instructions are refused.** An instruction followed by 16 to 24 operand bytes is an error,
although the skip distance allows up to 24. -/
theorem C42_long_instruction_refused (code : List UInt8) (mask : List Bool) (table : List Nat) (i d : Nat)
    (hi : StartsAt mask i) (hs : IsSkip mask code.length i d) (hd : 15 < d)
    (hlen : mask.length = code.length)
    (hbefore : ∀ j e, j < i → StartsAt mask j → IsSkip mask code.length j e → Complete code j e ∧ e ≤ 15) :
    loadParts code mask table = .error .invalidFormat := by
  unfold loadParts
  simp only []
  rw [decodeLoop_first_panic code _ mask 0 [] _ i .invalidFormat hi
    (by rw [Nat.zero_add]; exact (decodeAt_cases hs (skipAt_of_isSkip hs)).2.2 hd)]
  intro j hj hbj
  obtain ⟨e, he⟩ := isSkip_exists (mask := mask) (len := code.length) (i := j)
    (by rw [← hlen]; exact (List.getElem?_eq_some_iff.1 hbj).1)
  obtain ⟨hc, h15⟩ := hbefore j e hj hbj he
  rw [Nat.zero_add]
  exact (decodeAt_cases he (skipAt_of_isSkip he)).1 hc h15

/-- A trap followed by sixteen unmarked bytes. -/
example : loadParts (List.replicate 17 0) (true :: List.replicate 16 false) [] = .error .invalidFormat := by
  decide

/-- **Table length.** A blob announcing `2^61` jump-table entries crashes the loader, whatever follows. -/
theorem C42_huge_table_panics (z : UInt8) (rest : List UInt8) :
    loadProgram ([255, 0, 0, 0, 0, 0, 0, 0, 0x20] ++ z :: 0 :: rest) = .error .panic := by
  have h1 : Codec.intDecode 64 ([255, 0, 0, 0, 0, 0, 0, 0, 0x20] ++ z :: 0 :: rest) =
      .ok (2305843009213693952, z :: 0 :: rest) := rfl
  have h2 : Codec.intDecode 64 (0 :: rest) = .ok (0, rest) := rfl
  unfold loadProgram deblob
  rw [h1]
  simp only [Codec.readByte]
  rw [h2]
  simp only []
  rw [if_pos (by decide)]

example : loadProgram [255, 0, 0, 0, 0, 0, 0, 0, 0x20, 4, 0] = .error .panic := C42_huge_table_panics 4 []

/-- **Only these crash.** If the loader crashes, the blob announces at least `2^61` table entries or
`2^63` code bytes, or it contains an instruction without its operand bytes. -/
theorem C42_panic_causes (blob : List UInt8) (h : loadProgram blob = .error .panic) :
    deblob blob = .error .panic ∨ ∃ code mask table i d, deblob blob = .ok (code, mask, table) ∧
      StartsAt mask i ∧ IsSkip mask code.length i d ∧ ¬ Complete code i d := by
  unfold loadProgram at h
  split at h
  · rename_i e he
    cases h
    exact .inl he
  · rename_i code mask table hd
    right
    refine ⟨code, mask, table, ?_⟩
    have hlen := deblob_lengths hd
    refine Classical.byContradiction fun hno => ?_
    unfold loadParts at h
    simp only [] at h
    split at h
    · rename_i e he
      cases h
      have key : ∀ bs idx dec look, decodeLoop code (skipDistances mask code.length) bs idx dec look = .error .panic →
          ∃ k : Nat, bs[k]? = some true ∧ decodeAt code (skipDistances mask code.length) (idx + k) = .error .panic := by
        intro bs
        induction bs with
        | nil => intro idx dec look hh; cases hh
        | cons b bs ih =>
          intro idx dec look hh
          unfold decodeLoop at hh
          cases b with
          | false =>
            obtain ⟨k, k1, k2⟩ := ih _ _ _ hh
            exact ⟨k + 1, by rwa [List.getElem?_cons_succ], by rwa [show idx + (k + 1) = idx + 1 + k by omega]⟩
          | true =>
            simp only [Bool.not_true, Bool.false_eq_true, if_false] at hh
            split at hh
            · rename_i e' he'
              cases hh
              exact ⟨0, rfl, he'⟩
            · obtain ⟨k, k1, k2⟩ := ih _ _ _ hh
              exact ⟨k + 1, by rwa [List.getElem?_cons_succ], by rwa [show idx + (k + 1) = idx + 1 + k by omega]⟩
      obtain ⟨k, hk, hp⟩ := key _ _ _ _ he
      rw [Nat.zero_add] at hp
      obtain ⟨d, hs⟩ := isSkip_exists (mask := mask) (len := code.length) (i := k)
        (by rw [← hlen]; exact (List.getElem?_eq_some_iff.1 hk).1)
      obtain ⟨c1, c2, c3⟩ := decodeAt_cases hs (skipAt_of_isSkip hs)
      by_cases h15 : 15 < d
      · rw [c3 h15] at hp; cases hp
      · by_cases hc : Complete code k d
        · obtain ⟨ins, hi⟩ := c1 hc (by omega)
          rw [hi] at hp; cases hp
        · exact hno ⟨k, d, hd, hk, hs, hc⟩
    · cases h

example : ∃ code mask table, deblob [0, 0, 1, 100, 1] = .ok (code, mask, table) ∧ StartsAt mask 0 ∧
    ¬ Complete code 0 0 := ⟨[100], [true], [], by decide, by decide, by decide⟩

end Fastroll.Pvm
