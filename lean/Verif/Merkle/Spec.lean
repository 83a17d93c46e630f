import Verif.Merkle.Model
/-! # What a Merkle justification and a mountain range should mean -/
namespace Fastroll.Merkle

/-- The verifier: recompute the root of an `n`-item tree from a leaf (or subtree) value
at index `idx` and the sibling path, given from the root downwards. Depends only on the
number of items, not on them. -/
def recompute (h : Bytes → Bytes) : (n idx : Nat) → List Bytes → Bytes → Bytes
  | _, _, [], leaf => leaf
  | n, idx, s :: path, leaf =>
    if idx < (n + 1) / 2 then
      h (nodePrefix ++ recompute h ((n + 1) / 2) idx path leaf ++ s)
    else
      h (nodePrefix ++ s ++ recompute h (n / 2) (idx - (n + 1) / 2) path leaf)

/-- The byte strings the verifier hashes, outermost first. -/
def verifierInputs (h : Bytes → Bytes) : (n idx : Nat) → List Bytes → Bytes → List Bytes
  | _, _, [], _ => []
  | n, idx, s :: path, leaf =>
    if idx < (n + 1) / 2 then
      (nodePrefix ++ recompute h ((n + 1) / 2) idx path leaf ++ s) ::
        verifierInputs h ((n + 1) / 2) idx path leaf
    else
      (nodePrefix ++ s ++ recompute h (n / 2) (idx - (n + 1) / 2) path leaf) ::
        verifierInputs h (n / 2) (idx - (n + 1) / 2) path leaf

/-- The value of the perfect binary tree over a power-of-two run of leaves. -/
def perfect (h : Bytes → Bytes) : (depth : Nat) → List Bytes → Bytes
  | 0, l => l.headD []
  | d + 1, l => h (perfect h d (l.take (2 ^ d)) ++ perfect h d (l.drop (2 ^ d)))

/-- The `i`-th binary digit of `n`. -/
def digit (n i : Nat) : Bool := n / 2 ^ i % 2 == 1

/-- Where the run of leaves under peak `i` starts among `n` leaves: after all the leaves
counted by the higher binary digits. -/
def runStart (n i : Nat) : Nat := n / 2 ^ (i + 1) * 2 ^ (i + 1)

end Fastroll.Merkle
