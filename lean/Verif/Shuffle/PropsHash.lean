import Verif.Shuffle.Props

/-! # Properties of the numbers drawn from the entropy (C08) -/
namespace Fastroll.Shuffle

/-- The numbers drawn are those of the paper. -/
theorem randoms_gp (H : List UInt8 → List UInt8) (hH : ∀ x, (H x).length = 32) (seed : List UInt8) (n : Nat) :
    hashToRandoms H seed n = gpRandoms H seed n := by
  have hw : ∀ (k : Nat) (l : List UInt8), l.length = 4 * k → gpWords l = (List.range k).map fun i => Codec.leVal ((l.drop (4 * i)).take 4) := by
    intro k
    induction k with
    | zero => intro l h; rw [List.length_eq_zero_iff.1 (by omega : l.length = 0)]; rfl
    | succ k ih =>
      intro l h
      match l, h with
      | a :: b :: c :: d :: l, h =>
        rw [gpWords, ih l (by simp at h; omega), List.range_succ_eq_map, List.map_cons, List.map_map]
        congr 1
        simp [Codec.leVal]; omega
  have hr : ∀ (m : Nat) (f : Nat → Nat), (List.range (8 * m)).map f = (List.range m).flatMap fun j => (List.range 8).map fun k => f (8 * j + k) := by
    intro m f
    induction m with
    | zero => rfl
    | succ m ih =>
      rw [Nat.mul_succ, List.range_add, List.map_append, ih, List.range_succ (n := m), List.flatMap_append]
      simp only [List.map_map, List.flatMap_singleton]
      rfl
  unfold hashToRandoms gpRandoms
  have e : (List.range n) = (List.range (8 * ((n + 7) / 8))).take n := by
    rw [List.take_range, Nat.min_eq_left (by omega)]
  rw [e, List.map_take, hr]
  congr 1
  refine congrArg (fun f => (List.range ((n + 7) / 8)).flatMap f) (funext fun j => ?_)
  rw [hw 8 _ (hH _)]
  apply List.map_congr_left
  intro k hk
  have hk := List.mem_range.1 hk
  have e1 : (8 * j + k) / 8 = j := by omega
  have e2 : 4 * (8 * j + k) % 32 = 4 * k := by omega
  have e3 : Codec.leBytes 4 j = [UInt8.ofNat j, UInt8.ofNat (j / 2 ^ 8), UInt8.ofNat (j / 2 ^ 16), UInt8.ofNat (j / 2 ^ 24)] := by
    have ho : ∀ x, UInt8.ofNat (x % 256) = UInt8.ofNat x := fun x => UInt8.toNat_inj.1 (by simp)
    simp only [Codec.leBytes_succ, ho, Nat.div_div_eq_div_mul]
    rfl
  rw [e1, e2, e3]

/-- **C08.** The numbers that drive the shuffle are the paper's: the little-endian words of the hashes of the entropy
and the counters 0, 1, 2, … put one after the other; so shuffling by entropy is the paper's function. -/
theorem C08_randoms (H : List UInt8 → List UInt8) (hH : ∀ x, (H x).length = 32) (elems : List α) (seed : List UInt8) :
    shuffleWithHash H elems seed = some (gpShuffle elems (gpRandoms H seed elems.length)) := by
  unfold shuffleWithHash
  rw [randoms_gp H hH, C08_shuffle_is_paper]

/-- **C09.** The assignment is the paper's `P`: shuffle the cores, each as often as it has validators, by the entropy
and turn them by the rotation the slot is in. -/
theorem C09_assignment (S : Spec) (H : List UInt8 → List UInt8) (hH : ∀ x, (H x).length = 32) (entropy : List UInt8) (slot : Nat) :
    permute S H entropy slot = some (gpAssignment S.validators S.cores S.epochLength S.rotationPeriod H entropy slot) := by
  unfold permute gpAssignment rotate
  simp only [C08_randoms H hH, List.length_map, List.length_range]

def exHash (l : List UInt8) : List UInt8 := (List.range 32).map fun i => UInt8.ofNat (7 * i + l.foldl (fun a b => 3 * a + b.toNat) 1)

example : shuffleWithHash exHash (List.range 10) [1, 2] = some (gpShuffle (List.range 10) (gpRandoms exHash [1, 2] 10)) ∧
    shuffleWithHash exHash (List.range 10) [1, 2] ≠ some (List.range 10) :=
  ⟨C08_randoms exHash (fun _ => by simp [exHash]) _ _, by decide +kernel⟩

example : permute tiny exHash [1, 2] 5 = some (gpAssignment 6 2 12 4 exHash [1, 2] 5) :=
  C09_assignment tiny exHash (fun _ => by simp [exHash]) _ _

end Fastroll.Shuffle
