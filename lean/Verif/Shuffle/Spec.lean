/-! # The paper's shuffle, as a recursion on the remaining sequence -/
namespace Fastroll.Shuffle

/-- `F(s, r)`: draw the element at `r₀ mod |s|`, fill its place with the last one, drop the
last place, continue with the rest. -/
def gpShuffle {α : Type} : List α → List Nat → List α
  | _, [] => []
  | s, r :: rs =>
    match s[r % s.length]?, s.getLast? with
    | some x, some last => x :: gpShuffle ((s.set (r % s.length) last).dropLast) rs
    | _, _ => []

/-- Little-endian words of four octets. -/
def gpWords : List UInt8 → List Nat
  | a :: b :: c :: d :: l => (a.toNat + 2 ^ 8 * b.toNat + 2 ^ 16 * c.toNat + 2 ^ 24 * d.toNat) :: gpWords l
  | _ => []

/-- `Q`: the words of the hashes of the seed with the counters 0, 1, 2, … in four octets. -/
def gpRandoms (H : List UInt8 → List UInt8) (seed : List UInt8) (n : Nat) : List Nat :=
  ((List.range ((n + 7) / 8)).flatMap fun j =>
    gpWords (H (seed ++ [UInt8.ofNat j, UInt8.ofNat (j / 2 ^ 8), UInt8.ofNat (j / 2 ^ 16), UInt8.ofNat (j / 2 ^ 24)]))).take n

/-- `P`: the core of each of `v` validators. -/
def gpAssignment (v c epoch rotation : Nat) (H : List UInt8 → List UInt8) (seed : List UInt8) (slot : Nat) : List Nat :=
  (gpShuffle ((List.range v).map fun i => c * i / v) (gpRandoms H seed v)).map fun x => (x + slot % epoch / rotation) % c

end Fastroll.Shuffle
