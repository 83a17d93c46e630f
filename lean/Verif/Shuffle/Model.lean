import Verif.Codec.Lemmas
/-!
# Model of the shuffle and the guarantor rotation

Transcribes `/repo/extrinsics/src/utils/shuffle.rs` and
`/repo/extrinsics/src/utils/guarantor_rotation.rs`.
-/
namespace Fastroll.Shuffle

/-- The loop of `shuffle`, lines 21-33, from iteration `i` with the elements and
result so far; `none` is an index panic. -/
def shuffleLoop {α : Type} (len : Nat) : (i : Nat) → List Nat → List α → List α → Option (List α)
  | _, [], _, result => some result
  | i, r :: rs, elems, result =>
    if i ≥ len then some result
    else
      let range := len - i
      let idx := r % range
      match elems[idx]? with
      | none => none
      | some x =>
        if i < len - 1 then
          match elems[range - 1]? with
          | none => none
          | some y => shuffleLoop len (i + 1) rs (elems.set idx y) (result ++ [x])
        else shuffleLoop len (i + 1) rs elems (result ++ [x])

/-- `shuffle`, lines 13-36. -/
def shuffle {α : Type} (elems : List α) (randoms : List Nat) : Option (List α) :=
  if elems.length = 0 then some [] else shuffleLoop elems.length 0 randoms elems []

/-- `hash_to_randoms_vec`, lines 45-75, with the 32-byte hash function as the
parameter `H` (its error fallback, lines 57-60, is the hash function's business). -/
def hashToRandoms (H : List UInt8 → List UInt8) (seed : List UInt8) (n : Nat) : List Nat :=
  (List.range n).map fun i =>
    Codec.leVal (((H (seed ++ Codec.leBytes 4 (i / 8))).drop ((4 * i) % 32)).take 4)

/-- `shuffle_with_hash`, lines 39-43. -/
def shuffleWithHash {α : Type} (H : List UInt8 → List UInt8) (elems : List α) (seed : List UInt8) :
    Option (List α) :=
  shuffle elems (hashToRandoms H seed elems.length)

/-- `rotate_validator_indices`, `guarantor_rotation.rs` lines 35-40. `u16`
addition: `index + shift` stays below `2^16` for both chain specifications. -/
def rotate (cores : Nat) (indices : List Nat) (shift : Nat) : List Nat :=
  indices.map fun index => (index + shift) % cores

/-- Parameters of the chain specification used by the rotation. -/
structure Spec where
  validators : Nat
  cores : Nat
  epochLength : Nat
  rotationPeriod : Nat

/-- `permute_validator_indices`, lines 43-57. -/
def permute (S : Spec) (H : List UInt8 → List UInt8) (entropy : List UInt8) (slot : Nat) :
    Option (List Nat) :=
  let indices := (List.range S.validators).map fun i => S.cores * i / S.validators
  match shuffleWithHash H indices entropy with
  | none => none
  | some sh => some (rotate S.cores sh ((slot % S.epochLength) / S.rotationPeriod))

end Fastroll.Shuffle
