import Verif.Shuffle.Lemmas
/-! # Shuffle (C08) and guarantor rotation (C09) -/
namespace Fastroll.Shuffle
variable {α : Type}

/-- **C08.** For every list and every stream of randoms at least as long, the
shuffle does not panic and returns a permutation of its input. -/
theorem C08_shuffle_perm (elems : List α) (randoms : List Nat)
    (h : elems.length ≤ randoms.length) :
    ∃ out, shuffle elems randoms = some out ∧ out.Perm elems := by
  unfold shuffle
  split
  · rename_i h0
    have : elems = [] := List.length_eq_zero_iff.mp h0
    exact ⟨[], rfl, by rw [this]⟩
  · obtain ⟨out, rest, h1, h2, h3⟩ := shuffleLoop_spec elems randoms 0 elems [] rfl (by omega)
      (by simp) rfl
    refine ⟨out, h1, ?_⟩
    have hl := h2.length_eq
    rw [List.length_append] at hl
    have : rest = [] := List.length_eq_zero_iff.mp (by omega)
    simpa [this] using h2

example : shuffle [10, 20, 30] [7, 5, 1] = some [20, 30, 10] := by decide

/-- **C08.** With too few randoms it still does not panic, and yields that many
elements drawn without replacement. -/
theorem C08_shuffle_short (elems : List α) (randoms : List Nat) :
    ∃ out rest, shuffle elems randoms = some out ∧ (rest ++ out).Perm elems ∧
      out.length = min elems.length randoms.length := by
  unfold shuffle
  split
  · rename_i h0
    have : elems = [] := List.length_eq_zero_iff.mp h0
    exact ⟨[], [], rfl, by rw [this]; exact List.Perm.refl _, by simp [this]⟩
  · obtain ⟨out, rest, h1, h2, h3⟩ := shuffleLoop_spec elems randoms 0 elems [] rfl (by omega)
      (by simp) rfl
    exact ⟨out, rest, h1, h2, by simpa using h3⟩

/-- **C08.** The in-place loop computes the paper's recursive shuffle exactly, for every
input and every stream of randoms. -/
theorem C08_shuffle_is_paper (elems : List α) (randoms : List Nat) :
    shuffle elems randoms = some (gpShuffle elems randoms) := by
  unfold shuffle
  split
  · rename_i h0
    rw [List.length_eq_zero_iff.mp h0, gpShuffle_nil]
  · rw [shuffleLoop_gp _ _ _ _ _ rfl (by omega)]; simp

/-- **C08.** Shuffling with an entropy hash is a permutation whatever the hash
function and the entropy are. -/
theorem C08_shuffle_with_hash_perm (H : List UInt8 → List UInt8) (elems : List α) (seed : List UInt8) :
    ∃ out, shuffleWithHash H elems seed = some out ∧ out.Perm elems :=
  C08_shuffle_perm _ _ (by rw [hashToRandoms_length]; exact Nat.le_refl _)

/-- **C09.** When the number of validators is a positive multiple `k` of the number
of cores, every entropy and every slot assign exactly `k` validators to each core,
every validator gets exactly one core, and no other core index appears. -/
theorem C09_balanced (S : Spec) (k : Nat) (hC : 0 < S.cores) (hk : 0 < k)
    (hV : S.validators = S.cores * k) (H : List UInt8 → List UInt8) (entropy : List UInt8)
    (slot : Nat) :
    ∃ cores, permute S H entropy slot = some cores ∧ cores.length = S.validators ∧
      (∀ c ∈ cores, c < S.cores) ∧ ∀ c, c < S.cores → cores.count c = k := by
  unfold permute
  obtain ⟨out, h1, h2⟩ := C08_shuffle_with_hash_perm H
    ((List.range S.validators).map fun i => S.cores * i / S.validators) entropy
  simp only [h1]
  refine ⟨_, rfl, ?_, ?_, ?_⟩
  · simp [rotate, h2.length_eq]
  · intro c hc
    obtain ⟨a, _, rfl⟩ := List.mem_map.mp hc
    exact Nat.mod_lt _ hC
  · intro c hc
    have hlt : ∀ i ∈ out, i < S.cores := by
      intro i hi
      obtain ⟨a, ha, rfl⟩ := List.mem_map.mp (h2.mem_iff.mp hi)
      have ha := List.mem_range.mp ha
      refine Nat.div_lt_of_lt_mul ?_
      rw [Nat.mul_comm S.validators]
      exact Nat.mul_lt_mul_of_pos_left ha hC
    rw [count_rotate _ _ _ hC hc _ hlt, h2.count_eq, hV]
    exact count_base S.cores k _ hC hk (Nat.mod_lt _ hC)

/-- The two chain specifications: `/repo/common/src/chain_spec/full.rs` lines 6-34 and `tiny.rs` lines 6-37. -/
def full : Spec := ⟨1023, 341, 600, 10⟩
def tiny : Spec := ⟨6, 2, 12, 4⟩

/-- **C09.** In both chain specifications each core has exactly three guarantors. -/
theorem C09_three_per_core (S : Spec) (hS : S = full ∨ S = tiny) (H : List UInt8 → List UInt8)
    (entropy : List UInt8) (slot : Nat) :
    ∃ cores, permute S H entropy slot = some cores ∧ cores.length = S.validators ∧
      ∀ c, c < S.cores → cores.count c = 3 := by
  rcases hS with rfl | rfl
  · obtain ⟨l, a, b, _, d⟩ := C09_balanced full 3 (by decide) (by decide) (by decide) H entropy slot
    exact ⟨l, a, b, d⟩
  · obtain ⟨l, a, b, _, d⟩ := C09_balanced tiny 3 (by decide) (by decide) (by decide) H entropy slot
    exact ⟨l, a, b, d⟩

/-- **C09.** Advancing by one rotation period within an epoch moves every validator
to the next core. -/
theorem C09_rotation_step (S : Spec) (hR : 0 < S.rotationPeriod)
    (H : List UInt8 → List UInt8) (entropy : List UInt8) (slot : Nat)
    (hep : slot % S.epochLength + S.rotationPeriod < S.epochLength) (a b : List Nat)
    (ha : permute S H entropy slot = some a)
    (hb : permute S H entropy (slot + S.rotationPeriod) = some b) :
    b = a.map fun c => (c + 1) % S.cores := by
  unfold permute at ha hb
  have hmod : (slot + S.rotationPeriod) % S.epochLength = slot % S.epochLength + S.rotationPeriod := by
    rw [Nat.add_mod, Nat.mod_eq_of_lt (show S.rotationPeriod < S.epochLength by omega),
      Nat.mod_eq_of_lt hep]
  cases hs : shuffleWithHash H ((List.range S.validators).map fun i => S.cores * i / S.validators) entropy with
  | none => simp [hs] at ha
  | some sh =>
    simp only [hs, Option.some.injEq] at ha hb
    subst ha; subst hb
    rw [hmod, Nat.add_div_right _ hR]
    simp only [rotate, List.map_map]
    apply List.map_congr_left
    intro x _
    simp only [Function.comp, Nat.mod_add_mod]
    congr 1

example : (5 : Nat) % tiny.epochLength + tiny.rotationPeriod < tiny.epochLength := by decide

end Fastroll.Shuffle
