import Verif.Da.Lemmas2
import Verif.Da.Toy
/-! # Erasure coding (C54)

The Reed–Solomon library enters as `Mds`, the promise that any `k` of the `n` words of a codeword restore
the missing originals. Everything around it — padding, cutting, transposing, writing back, choosing which
word is which — is the code of the repository, and is proved here for every `k`, `n` and data. -/
namespace Fastroll.Da

/-- **C54, encoding.** For any data, `erasure_encode` returns `n` chunks of the data padded with fewer than
`2k` zero octets: all chunks have the same length, the first `k` joined are the padded data, and the words
at one position across the chunks are one codeword of the library. -/
theorem C54_encode {rs : RS} {k n : Nat} (hk : 0 < k) (hkn : k ≤ n) (hm : Mds rs k n) (data : Bytes) :
    ∃ d chunks, Padded k data d ∧ erasureEncode rs k n data = .ok chunks ∧ IsCoding rs k n d chunks := by
  obtain ⟨d, P, h1, h2, h3⟩ := encode_eq hk hkn hm data
  exact ⟨d, _, h1, h3, chunksOf_coding hk hkn hm d P h2⟩

example : ∃ chunks, erasureEncode toyRS 2 3 [1, 2, 3, 4, 5] = .ok chunks ∧
    chunks = [[1, 2, 3, 4], [5, 0, 0, 0], [4, 2, 3, 4]] ∧
    IsCoding toyRS 2 3 [1, 2, 3, 4, 5, 0, 0, 0] chunks := by
  obtain ⟨d, cs, h1, h2, h3⟩ := C54_encode (by decide) (by decide) toy_mds [1, 2, 3, 4, 5]
  have hd : d = [1, 2, 3, 4, 5, 0, 0, 0] :=
    padded_unique h1 ⟨3, by decide, rfl, by decide⟩
  subst hd
  refine ⟨cs, h2, ?_, h3⟩
  have : erasureEncode toyRS 2 3 [1, 2, 3, 4, 5] = .ok [[1, 2, 3, 4], [5, 0, 0, 0], [4, 2, 3, 4]] := by
    decide +kernel
  rw [this] at h2
  injection h2 with h2
  exact h2.symm

/-- **C54, recovery.** Whoever holds any `k` or more of the chunks of some data, whichever they are,
recovers the padded data, and so the data itself once its length is known. -/
theorem C54_recover {rs : RS} {k n : Nat} (hk : 0 < k) (hkn : k ≤ n) (hm : Mds rs k n) (data : Bytes)
    (chunks : List Bytes) (he : erasureEncode rs k n data = .ok chunks) (got : List (Option Bytes))
    (hh : Holds chunks got) (hc : k ≤ held got) :
    ∃ d, Padded k data d ∧ erasureRecover rs k got = .ok d ∧ d.take data.length = data := by
  obtain ⟨d, P, h1, h2, h3⟩ := encode_eq hk hkn hm data
  rw [he] at h3
  injection h3 with h3
  subst h3
  refine ⟨d, h1, recover_eq hk hkn hm d P h2 got hh hc, ?_⟩
  obtain ⟨z, _, rfl, _⟩ := h1
  exact List.take_left' rfl

/-- Chunk 0 is lost; chunks 1 and 2 are enough. -/
example : ∃ d, erasureRecover toyRS 2 [none, some [5, 0, 0, 0], some [4, 2, 3, 4]] = .ok d ∧
    d.take 5 = [1, 2, 3, 4, 5] := by
  obtain ⟨d, _, h1, h2⟩ := C54_recover (by decide) (by decide) toy_mds [1, 2, 3, 4, 5]
    [[1, 2, 3, 4], [5, 0, 0, 0], [4, 2, 3, 4]] (by decide +kernel)
    [none, some [5, 0, 0, 0], some [4, 2, 3, 4]]
    (by
      intro i c h
      match i, h with
      | 0, h => simp at h
      | 1, h => simpa using h
      | 2, h => simpa using h
      | (i + 3), h => simp at h)
    (by decide)
  exact ⟨d, h1, h2⟩

/-- **C54, too few.** With fewer than `k` chunks nothing is returned, whatever the chunks are. -/
theorem C54_insufficient (rs : RS) (k : Nat) (got : List (Option Bytes)) (h : held got < k) :
    erasureRecover rs k got = .insufficient (held got) k := by
  unfold erasureRecover
  dsimp only
  rw [indexed_length, if_pos h]

example : erasureRecover toyRS 2 [none, some [1, 2]] = .insufficient 1 2 :=
  C54_insufficient toyRS 2 [none, some [1, 2]] (by decide)

theorem columns_not_ok (f : Nat → Res (List (Nat × Nat × Bytes))) (ps : List Nat) (p : Nat) (hp : p ∈ ps)
    (h : ∀ a, f p ≠ .ok a) : ∀ a, columns f ps ≠ .ok a := by
  induction ps with
  | nil => cases hp
  | cons q ps ih =>
    intro a e
    unfold columns at e
    rcases List.mem_cons.mp hp with e' | e'
    · subst e'
      cases hf : f p with
      | ok x => exact h x hf
      | _ => rw [hf] at e; cases e
    · cases hf : f q with
      | ok x =>
        rw [hf] at e
        simp only [Res.bind] at e
        cases hc : columns f ps with
        | ok y => exact ih e' y hc
        | _ => rw [hc] at e; cases e
      | _ => rw [hf] at e; cases e

theorem mapM_none {α β : Type} (f : α → Option β) (l : List α) (x : α) (hx : x ∈ l) (h : f x = none) :
    l.mapM f = none := by
  induction l with
  | nil => cases hx
  | cons a l ih =>
    rw [List.mapM_cons]
    rcases List.mem_cons.mp hx with e | e
    · subst e; rw [h]; rfl
    · rw [ih e]
      cases f a <;> rfl

/-- **C54, hostile chunks.** Chunk lengths are taken from the first chunk at hand and not checked. A chunk
that is shorter by a word or more makes recovery fail whatever the other chunks are. -/
theorem C54_short_chunk (rs : RS) (k : Nat) (got : List (Option Bytes)) (c s : Bytes) (cs : List (Bytes × Nat))
    (i j : Nat) (hfirst : indexed got = (c, i) :: cs) (hs : (s, j) ∈ indexed got)
    (hlen : s.length + 2 ≤ c.length) : ∀ d, erasureRecover rs k got ≠ .ok d := by
  intro d h
  unfold erasureRecover at h
  dsimp only at h
  rw [hfirst] at h hs
  split at h
  · cases h
  · simp only [] at h
    have : ∀ a, columns (recoverColumn rs k ((c, i) :: cs)) (List.range (c.length / 2)) ≠ .ok a := by
      refine columns_not_ok _ _ (s.length / 2) (List.mem_range.mpr (by omega)) ?_
      intro a ha
      unfold recoverColumn at ha
      have hn : columnWords ((c, i) :: cs) (s.length / 2) = none := by
        unfold columnWords
        refine mapM_none _ _ (s, j) hs ?_
        unfold wordAt
        rw [if_neg (by simp only []; omega)]
        rfl
      rw [hn] at ha
      cases ha
    cases hc : columns (recoverColumn rs k ((c, i) :: cs)) (List.range (c.length / 2)) with
    | ok a => exact this a hc
    | _ => rw [hc] at h; cases h

example : ∀ d, erasureRecover toyRS 2 [some [1, 2, 3, 4], some [5, 0]] ≠ .ok d :=
  C54_short_chunk toyRS 2 [some [1, 2, 3, 4], some [5, 0]] [1, 2, 3, 4] [5, 0] [([5, 0], 1)] 0 1
    (by decide) (by decide) (by decide)

/-- **C54, hostile chunks (negation).** Recovery is not total on chunks a peer may send: a short chunk
panics instead of being refused; a chunk of odd length is accepted with its last octet replaced by zero;
a chunk longer than the first is cut without notice. -/
theorem C54_chunks_unchecked :
    erasureRecover toyRS 2 [some [1, 2, 3, 4], some [5, 0]] = .panic ∧
    erasureRecover toyRS 2 [some [1, 2, 3], some [4, 5, 6]] = .ok [1, 2, 0, 4, 5, 0] ∧
    erasureRecover toyRS 2 [some [1, 2], some [4, 5, 6, 7]] = .ok [1, 2, 4, 5] := by
  decide +kernel

/-! ## Padding to a block -/

/-- **C54, block padding.** For a positive block size and any data that is not empty, `zero_pad` appends
the fewest zeros that reach a multiple of the block size. -/
theorem C54_zero_pad (block : Nat) (hb : 0 < block) (data : Bytes) (hne : data ≠ []) :
    ∃ z, z < block ∧ zeroPad block data = some (data ++ List.replicate z 0) ∧
      (data.length + z) % block = 0 := by
  have hpos : 0 < data.length := List.length_pos_iff.mpr hne
  have h1 := Nat.div_add_mod (data.length + block - 1) block
  have h2 := Nat.mod_lt (data.length + block - 1) hb
  unfold zeroPad
  rw [if_neg (by omega)]
  have he : data.isEmpty = false := by
    cases data with
    | nil => exact absurd rfl hne
    | cons => rfl
  dsimp only
  rw [he]
  simp only [Bool.false_eq_true, if_false]
  rw [Nat.mul_comm] at h1
  have hm : (data.length + block - 1) / block * block % block = 0 := Nat.mul_mod_left ..
  generalize (data.length + block - 1) / block * block = q at h1 hm
  refine ⟨q - data.length, by omega, ?_, ?_⟩
  · rw [List.take_of_length_le (by omega)]
  · rw [show data.length + (q - data.length) = q by omega]
    exact hm

example : zeroPad 5 [1, 2, 3, 4, 5, 6] = some [1, 2, 3, 4, 5, 6, 0, 0, 0, 0] := by decide

/-- **C54, block padding (negation).** Empty data becomes a whole block, where the Gray Paper's padding
appends nothing to it. -/
theorem C54_zero_pad_empty (block : Nat) (hb : 0 < block) :
    zeroPad block [] = some (List.replicate block 0) := by
  unfold zeroPad
  rw [if_neg (by omega)]
  simp

end Fastroll.Da
