import Verif.Codec.Model
/-!
# Specification vocabulary for the codec

Independent of how encoders work: what it means to round-trip, and a small
universe of wire types covering the generic implementations of `lib.rs`.
-/
namespace Fastroll.Codec

/-- An encoder/decoder pair round-trips on the values satisfying `P`: encoding
succeeds and decoding the bytes followed by any input gives back the value and
that input. -/
def RoundTrips {α : Type} (e : Enc α) (d : Dec α) (P : α → Prop) : Prop :=
  ∀ a, P a → ∃ bs, e a = .ok bs ∧ ∀ rest, d (bs ++ rest) = .ok (a, rest)

/-- A decoder reads a prefix and ignores what follows: success on an input is
the same success, with the longer rest, on every extension. -/
def PrefixStable {α : Type} (d : Dec α) : Prop :=
  ∀ inp a r, d inp = .ok (a, r) →
    (∃ pre, inp = pre ++ r) ∧ ∀ ext, d (inp ++ ext) = .ok (a, r ++ ext)

/-- `E_l(x)` of the Gray Paper: `l` little-endian bytes. -/
def paperFixed : Nat → Nat → List UInt8
  | 0, _ => []
  | l + 1, x => UInt8.ofNat (x % 256) :: paperFixed l (x / 256)

/-- The Gray Paper's general natural encoding, as a relation: the length class `l` is
the one with `2^(7l) ≤ x < 2^(7(l+1))`, `l < 8`, and `255` introduces eight bytes. -/
inductive PaperInt : Nat → List UInt8 → Prop
  | zero : PaperInt 0 [0]
  | mid (x l : Nat) : l < 8 → 2 ^ (7 * l) ≤ x → x < 2 ^ (7 * (l + 1)) →
      PaperInt x (UInt8.ofNat (2 ^ 8 - 2 ^ (8 - l) + x / 2 ^ (8 * l)) :: paperFixed l (x % 2 ^ (8 * l)))
  | big (x : Nat) : 2 ^ 56 ≤ x → x < 2 ^ 64 → PaperInt x (255 :: paperFixed 8 x)

/-- Wire types: variable-length unsigned integers of `w` bits, fixed-width
integers of `n` bytes, booleans, bit sequences, options, pairs (hence tuples and
derived structs), vectors of elements of `sz` bytes in memory, limited vectors, arrays / `FixedVec`, and sorted maps
and sets keyed by integers. -/
inductive Ty where
  | uint (w : Nat)
  | fixed (n : Nat)
  | bool
  | bits
  | opt (t : Ty)
  | pair (a b : Ty)
  | vec (sz : Nat) (t : Ty)
  | limited (max : Nat) (t : Ty)
  | arr (n : Nat) (t : Ty)
  | map (w : Nat) (t : Ty)
  | bitsFixed (n : Nat)

/-- Values of a wire type. -/
def Ty.Val : Ty → Type
  | .uint _ => Nat
  | .fixed _ => Nat
  | .bool => Bool
  | .bits => List Bool
  | .opt t => Option t.Val
  | .pair a b => a.Val × b.Val
  | .vec _ t => List t.Val
  | .limited _ t => List t.Val
  | .arr _ t => List t.Val
  | .map _ t => List (Nat × t.Val)
  | .bitsFixed _ => List Bool

/-- Which values inhabit the Rust type: integers fit their width, lengths fit
`usize` and memory (and the declared bound), maps are strictly sorted. -/
def Ty.Ok : (t : Ty) → t.Val → Prop
  | .uint w, (x : Nat) => x < 2 ^ w ∧ w ≤ 64
  | .fixed n, (x : Nat) => x < 2 ^ (8 * n) ∧ n ≤ 8
  | .bool, _ => True
  | .bits, (bs : List Bool) => bs.length < 2 ^ 61
  | .opt t, (o : Option t.Val) => ∀ v, o = some v → t.Ok v
  | .pair a b, (x, y) => a.Ok x ∧ b.Ok y
  | .vec sz t, (vs : List t.Val) => vs.length < 2 ^ 64 ∧ vs.length * sz < 2 ^ 63 ∧ ∀ v ∈ vs, t.Ok v
  | .limited m t, (vs : List t.Val) => vs.length ≤ m ∧ vs.length < 2 ^ 64 ∧ ∀ v ∈ vs, t.Ok v
  | .arr n t, (vs : List t.Val) => vs.length = n ∧ ∀ v ∈ vs, t.Ok v
  | .map w t, (m : List (Nat × t.Val)) => m.length < 2 ^ 64 ∧ w ≤ 64 ∧
      m.Pairwise (fun p q => p.1 < q.1) ∧ ∀ p ∈ m, p.1 < 2 ^ w ∧ t.Ok p.2
  | .bitsFixed n, (bs : List Bool) => bs.length = n

/-- The encoder the trait machinery assembles for a wire type. -/
def Ty.enc : (t : Ty) → Enc t.Val
  | .uint _ => natEnc
  | .fixed n => fixedEncode n
  | .bool => boolEnc
  | .bits => bitsEnc
  | .opt t => optEnc t.enc
  | .pair a b => pairEnc a.enc b.enc
  | .vec _ t => vecEnc t.enc
  | .limited _ t => vecEnc t.enc
  | .arr _ t => seqEnc t.enc
  | .map _ t => mapEnc natEnc t.enc
  | .bitsFixed n => bitsEncFixed n

/-- The decoder the trait machinery assembles for a wire type. -/
def Ty.dec : (t : Ty) → Dec t.Val
  | .uint w => intDecode w
  | .fixed n => fixedDecode 64 n
  | .bool => boolDec
  | .bits => bitsDec
  | .opt t => optDec t.dec
  | .pair a b => pairDec a.dec b.dec
  | .vec sz t => vecDec sz t.dec
  | .limited m t => limitedDec m t.dec
  | .arr n t => seqDec t.dec n
  | .map w t => mapDec (fun a b => decide (a < b)) (intDecode w) t.dec
  | .bitsFixed n => bitsDecFixed n

end Fastroll.Codec
