/-!
# What hexadecimal text means

Stated without the model: the sixteen digits in both cases, and the number a row of digits denotes.
-/

namespace Fastroll.HexText.Spec

/-- The sixteen digits, small letters (character codes). -/
def lowerDigits : List UInt8 :=
  [0x30, 0x31, 0x32, 0x33, 0x34, 0x35, 0x36, 0x37, 0x38, 0x39, 0x61, 0x62, 0x63, 0x64, 0x65, 0x66]

/-- The sixteen digits, capital letters (character codes). -/
def upperDigits : List UInt8 :=
  [0x30, 0x31, 0x32, 0x33, 0x34, 0x35, 0x36, 0x37, 0x38, 0x39, 0x41, 0x42, 0x43, 0x44, 0x45, 0x46]

/-- Character `c` is the digit of value `d`. -/
def Spells (c : UInt8) (d : Nat) : Prop :=
  lowerDigits[d]? = some c ∨ upperDigits[d]? = some c

/-- The text is a row of digits with the given values. -/
inductive Row : List UInt8 → List Nat → Prop where
  | nil : Row [] []
  | cons {c d t ds} : Spells c d → Row t ds → Row (c :: t) (d :: ds)

/-- The text `t` is `s`, possibly with `0x` in front. -/
def Prefixed (t s : List UInt8) : Prop :=
  t = s ∨ t = [0x30, 0x78] ++ s

/-- The number a row of digits to base `b` denotes, most significant digit first. -/
def number (b : Nat) (ds : List Nat) : Nat :=
  ds.foldl (fun a d => a * b + d) 0

/-- The number an octet string denotes, most significant octet first. -/
def octetNumber (bs : List UInt8) : Nat :=
  number 256 (bs.map UInt8.toNat)

/-- The text and the octets agree: two digits for every octet, high half first. -/
def Pairs (t : List UInt8) (bs : List UInt8) : Prop :=
  Row t (bs.flatMap (fun b => [b.toNat / 16, b.toNat % 16]))

end Fastroll.HexText.Spec
