/-
The node encoding of the state trie as the Gray Paper defines it (appendix D.2), written on bit
strings, apart from the model.
-/
namespace Fastroll.Trie.Spec

/-- `bits`: every byte as eight bits, most significant first. -/
def bitString (bs : List UInt8) : List Bool :=
  bs.flatMap fun b => (List.range 8).map fun i => b.toNat / 2 ^ (7 - i) % 2 = 1

/-- `B(l, r)`: a zero bit, the left hash without its first bit, the right hash. -/
def branchBits (l r : List UInt8) : List Bool := false :: (bitString l).tail ++ bitString r

/-- `L(k, v)`: a value of at most 32 bytes is embedded with its length in six bits and zero padding;
a longer one is replaced by its hash. -/
def leafBits (H : List UInt8 → List UInt8) (k : List Bool) (v : List UInt8) : List Bool :=
  if v.length ≤ 32 then
    [true, false] ++ ((List.range 6).map fun i => decide (v.length / 2 ^ (5 - i) % 2 = 1)) ++ k ++ bitString v ++
      List.replicate (256 - 8 * v.length) false
  else [true, true, false, false, false, false, false, false] ++ k ++ bitString (H v)

end Fastroll.Trie.Spec
