import Verif.Stats.Lemmas3

/-! # Properties of the activity statistics (C53) -/
namespace Fastroll.Stats

/-- **C53** (current epoch). After any chain of blocks the current entry of each validator counts exactly what
they did in the blocks since the epoch began: blocks, tickets, preimages and octets they authored, blocks in
which they reported, blocks in which they assured. -/
theorem C53_current_epoch {K : Type} [DecidableEq K] (V C : Nat) (before : List (Block K)) (first : Block K)
    (rest : List (Block K)) (s s' : Stats) (hs : s.curr.length = V) (hk : Keyed V (before ++ first :: rest))
    (hf : first.newEpoch = true) (hr : ∀ b ∈ rest, b.newEpoch = false)
    (h : chain V C (before ++ first :: rest) s = some s') (v : Nat) (hv : v < V) :
    ∃ e, s'.curr[v]? = some e ∧ ValRight v (first :: rest) e := by
  rw [chain_append, Option.bind_eq_some_iff] at h
  obtain ⟨t, h1, h2⟩ := h
  have ht := chain_length V C before s t hs (fun b hb => hk b (by simp [hb])) h1
  obtain ⟨_, hc⟩ := chain_epoch V C first rest t s' ht (fun b hb => hk b (by simp [hb])) hf hr h2
  exact ⟨_, hc v hv, valPlus_right v (first :: rest)⟩

/-- **C53** (previous epoch). After any chain of blocks the previous entry of each validator counts exactly what
they did in the blocks of the epoch before. -/
theorem C53_previous_epoch {K : Type} [DecidableEq K] (V C : Nat) (before : List (Block K)) (first : Block K)
    (rest : List (Block K)) (next : Block K) (after : List (Block K)) (s s' : Stats) (hs : s.curr.length = V)
    (hk : Keyed V (before ++ first :: rest ++ next :: after)) (hf : first.newEpoch = true)
    (hr : ∀ b ∈ rest, b.newEpoch = false) (hn : next.newEpoch = true) (ha : ∀ b ∈ after, b.newEpoch = false)
    (h : chain V C (before ++ first :: rest ++ next :: after) s = some s') (v : Nat) (hv : v < V) :
    ∃ e, s'.prev[v]? = some e ∧ ValRight v (first :: rest) e := by
  rw [chain_append, Option.bind_eq_some_iff] at h
  obtain ⟨t, h1, h2⟩ := h
  have hk1 : Keyed V (before ++ first :: rest) := fun b hb => hk b (List.mem_append_left _ hb)
  have ht := chain_length V C _ s t hs hk1 h1
  obtain ⟨hp, _⟩ := chain_epoch V C next after t s' ht (fun b hb => hk b (List.mem_append_right _ hb)) hn ha h2
  rw [hp]
  exact C53_current_epoch V C before first rest s t hs hk1 hf hr h1 v hv

/-- **C53** (cores). After each block the entry of each core holds the sums over the reports guaranteed for it
in that block and the number of its assurers; nothing of earlier blocks remains. The data-availability load is
the code's own formula, see `C53_da_load_iff` for when that is the right one. -/
theorem C53_cores_partial {K : Type} [DecidableEq K] (V C : Nat) (b : Block K) (s s' : Stats)
    (h : transition V C b s = some s') :
    s'.cores.length = C ∧ ∀ c, c < C → ∃ e, s'.cores[c]? = some e ∧ CoreRight c b e ∧
      e.daSize.toNat = sumIf (onCore c) (fun r => (daLoad r).toNat) b.available % 2 ^ 32 := by
  unfold transition at h
  dsimp only at h
  rw [Option.bind_eq_some_iff] at h
  obtain ⟨t, _, h2⟩ := h
  simp only [perBlock, Option.map_eq_some_iff] at h2
  obtain ⟨cs, h3, rfl⟩ := h2
  exact coreStats_get C b cs h3

/-- **C53** (load). The load counted for an available report, `4104 * 65 * ⌈n / 64⌉`, is that of the segments
and proof pages placed in the store exactly when the number of segments is a multiple of 64. -/
theorem C53_da_load_iff (r : Report) (hr : r.bundleLen.toNat + 4104 * 65 * 1024 < 2 ^ 32) :
    (daLoad r).toNat = paperLoad r ↔ r.segCount.toNat % 64 = 0 := by
  have hn := r.segCount.toNat_lt
  rw [daLoad_nat]
  unfold paperLoad storedSegments
  rw [Nat.mod_eq_of_lt (by omega)]
  omega

/-- **C53** (services). After each block the services listed are exactly those with digests, preimages,
accumulated digests or accumulation gas in the block, in ascending order; each holds the sums for that block.
The order in which the accumulation statistics are iterated does not matter. -/
theorem C53_services {K : Type} [DecidableEq K] (V C : Nat) (b : Block K) (s s' : Stats) (reports : List Report)
    (gs : List (Nat × UInt64)) (hp : b.accStats.Perm (fromAccumulated reports gs))
    (h : transition V C b s = some s') :
    s'.services.Pairwise (fun x y => x.1 < y.1) ∧ ∀ id,
      (∀ e, entryOf s'.services id = some e → SvcRight id b reports gs e) ∧
      (entryOf s'.services id = none ↔ svcDigests id b = [] ∧ svcPreimages id b = [] ∧
        accDigests id reports % 2 ^ 32 = 0 ∧ accGas id gs % 2 ^ 64 = 0) := by
  unfold transition at h
  dsimp only at h
  rw [Option.bind_eq_some_iff] at h
  obtain ⟨t, _, h2⟩ := h
  simp only [perBlock, Option.map_eq_some_iff] at h2
  obtain ⟨cs, _, rfl⟩ := h2
  exact svcStats_right b reports gs hp

/-- **C53** (crashes). The transition panics exactly on an author index outside the validator set, a report for
a core that does not exist, or a bit vector longer than the number of cores. -/
theorem C53_total {K : Type} [DecidableEq K] (V C : Nat) (b : Block K) (s : Stats) (hs : s.curr.length = V) :
    transition V C b s = none ↔ V ≤ b.author ∨ (∃ r ∈ b.guarantees, C ≤ r.core) ∨
      (∃ r ∈ b.available, C ≤ r.core) ∨ (∃ a ∈ b.assurances, C < a.bits.length) := by
  unfold transition
  dsimp only
  generalize ht : (if b.newEpoch = true then newEpoch V s else s) = t
  have hlen : t.curr.length = V := by
    rw [← ht]; split
    · simp [newEpoch]
    · exact hs
  unfold validatorStats
  rw [modAt_some, hlen]
  by_cases hA : b.author < V
  · rw [if_pos hA, Option.map_some, Option.bind_some, perBlock, Option.map_eq_none_iff]
    have hc := coreStats_total C b
    constructor
    · intro hn
      rw [hn] at hc
      simp only [Option.isSome_none, Bool.false_eq_true, false_iff] at hc
      right
      apply Classical.byContradiction
      intro hno
      simp only [not_or, not_exists, not_and, Nat.not_le, Nat.not_lt] at hno
      exact hc hno
    · intro h
      cases he : coreStats C b with
      | none => rfl
      | some cs =>
        rw [he] at hc
        obtain ⟨c1, c2, c3⟩ := hc.mp rfl
        rcases h with h | ⟨r, hr, h⟩ | ⟨r, hr, h⟩ | ⟨a, ha, h⟩
        · omega
        · have := c1 r hr; omega
        · have := c2 r hr; omega
        · have := c3 a ha; omega
  · rw [if_neg hA, Option.map_none, Option.bind_none]
    exact ⟨fun _ => Or.inl (by omega), fun _ => rfl⟩

/-! ## A chain -/

/-- A digest of service 7 with 40000 exports and one import. -/
def exDigest : Digest := { service := 7, gas := 10, imports := 1, xts := 2, xtOctets := 30, exports := 40000 }
/-- A report on core 1 with two such digests, a bundle of 500 octets and 3 segments. -/
def exReport : Report := { core := 1, bundleLen := 500, segCount := 3, digests := [exDigest, exDigest] }
/-- A block by validator 1 that opens an epoch: two tickets, one preimage of 9 octets, an assurance by validator
2 for core 1, the report guaranteed and available, guaranteed by keys 11 and 12, accumulated with 77 gas. -/
def exBlock1 : Block Nat :=
  { newEpoch := true, author := 1, tickets := 2, preimages := [⟨5, 9⟩], assurances := [⟨2, [false, true]⟩]
    guarantees := [exReport], available := [exReport], reporters := [11, 12], active := [10, 11, 12]
    accStats := fromAccumulated [exReport] [(7, 70), (7, 7), (3, 0)] }
/-- A second block of the epoch by validator 1, empty but for an assurance by validator 2. -/
def exBlock2 : Block Nat :=
  { newEpoch := false, author := 1, tickets := 1, preimages := [], assurances := [⟨2, [false, false]⟩]
    guarantees := [], available := [], reporters := [], active := [10, 11, 12], accStats := [] }
/-- The first block of the next epoch. -/
def exBlock3 : Block Nat := { exBlock2 with newEpoch := true, author := 0 }

/-- The chain of the three blocks. -/
example : ∃ s', chain 3 2 [exBlock1, exBlock2, exBlock3] (initial 3 2) = some s' ∧
    s'.prev = [{}, { blocks := 2, tickets := 3, preimages := 1, octets := 9, guarantees := 1 },
      { guarantees := 1, assurances := 2 }] ∧
    s'.curr = [{ blocks := 1, tickets := 1 }, {}, { assurances := 1 }] := by
  refine ⟨_, rfl, ?_, ?_⟩ <;> decide +kernel

/-- The core and service entries after the first block. -/
example : ∃ s', transition 3 2 exBlock1 (initial 3 2) = some s' ∧
    s'.cores = [{}, { daSize := 500 + 4104 * 65, assurers := 1, imports := 2, xts := 4, xtOctets := 60
                      exports := 14464, bundle := 500, gas := 20 }] ∧
    s'.services = [(5, { preimages := 1, preimageOctets := 9 }),
      (7, { digests := 2, gas := 20, imports := 2, xts := 4, xtOctets := 60, exports := 80000, accDigests := 2
            accGas := 77 })] := by
  refine ⟨_, rfl, ?_, ?_⟩ <;> decide +kernel

/-- The hypotheses of the chain theorems hold for it. -/
example : Keyed 3 ([] ++ exBlock1 :: [exBlock2] ++ exBlock3 :: []) ∧ exBlock1.newEpoch = true ∧
    (∀ b ∈ [exBlock2], b.newEpoch = false) ∧ exBlock3.newEpoch = true := by
  refine ⟨?_, rfl, ?_, rfl⟩
  · intro b hb
    simp only [List.nil_append, List.cons_append, List.mem_cons, List.not_mem_nil, or_false] at hb
    rcases hb with rfl | rfl | rfl <;> rfl
  · intro b hb
    simp only [List.mem_singleton] at hb
    subst hb
    rfl

/-- **C53** (load, witness). With three exported segments, four segments are stored, but 65 are counted. -/
theorem C53_da_load_wrong : (daLoad exReport).toNat = 500 + 4104 * 65 ∧ paperLoad exReport = 500 + 4104 * 4 := by
  decide +kernel

/-- **C53** (wrap). Two digests of 40000 exports on one core are recorded as 14464 exports of the core (with
overflow checks the node would stop), although the service's entry shows 80000: nothing on chain bounds the
numbers a report claims. -/
theorem C53_core_exports_wrap : ∃ s' e f, transition 3 2 exBlock1 (initial 3 2) = some s' ∧
    s'.cores[1]? = some e ∧ entryOf s'.services 7 = some f ∧
    e.exports.toNat = 14464 ∧ f.exports.toNat = 80000 := by
  refine ⟨_, _, _, rfl, rfl, rfl, ?_, ?_⟩ <;> decide +kernel

end Fastroll.Stats
