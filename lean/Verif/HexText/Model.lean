/-!
# Text form of octet strings

Keys, hashes and octet strings are written to and read from JSON files (chain specifications, test
vectors, genesis states) and from literals as hexadecimal text.  A Rust `&str` is modelled as the
list of its UTF-8 bytes; nothing below relies on the bytes being valid UTF-8.
-/

namespace Fastroll.HexText

/-- The UTF-8 bytes of a text (`str`). -/
abbrev Text := List UInt8

/-- The errors of the readers.
`common/src/types/mod.rs:82-88` (`CommonTypeError`) and the `E::custom` errors of
`common/src/utils/serde.rs:56-59`, `86`; the payloads (messages) are not modelled. -/
inductive Err where
  | hexToByteArray
  | sliceToByteArray
  | custom
  deriving DecidableEq, Repr

/-- The outcome of a reader. -/
inductive Res where
  | ok (bs : List UInt8)
  | err (e : Err)
  deriving DecidableEq, Repr

/-- One lower-case digit, `HEX_CHARS_LOWER[n]` of the `hex` crate behind `hex::encode`
(`common/src/types/mod.rs:103`, `142`, `245`, `288`; `common/src/utils/serde.rs:98`, `107`). -/
def digit (n : UInt8) : UInt8 :=
  if n < 10 then n + 48 else n + 87

/-- `hex::encode`: two lower-case digits for every octet, high half first. -/
def encode : List UInt8 → Text
  | [] => []
  | b :: bs => digit (b >>> 4) :: digit (b &&& 15) :: encode bs

/-- `hex::val`: the value of one digit of either case, or nothing. -/
def val (c : UInt8) : Option UInt8 :=
  if 65 ≤ c ∧ c ≤ 70 then some (c - 65 + 10)
  else if 97 ≤ c ∧ c ≤ 102 then some (c - 97 + 10)
  else if 48 ≤ c ∧ c ≤ 57 then some (c - 48)
  else none

/-- `hex::decode`: nothing for an odd number of bytes or for a byte that is no digit
(`common/src/types/mod.rs:112`, `311`; `common/src/utils/serde.rs:55`, `84`). -/
def decode : Text → Option (List UInt8)
  | [] => some []
  | [_] => none
  | c :: d :: t =>
    match val c, val d, decode t with
    | some x, some y, some bs => some (((x <<< 4) ||| y) :: bs)
    | _, _, _ => none

/-- `strip_prefix("0x").unwrap_or(..)` (`common/src/types/mod.rs:111`, `299`;
`common/src/utils/serde.rs:54`, `83`). -/
def strip : Text → Text
  | 48 :: 120 :: t => t
  | t => t

/-- The number of characters of a text: the bytes that do not continue a character.  The width of
`format!("{:0>width$}")` counts characters, `len()` counts bytes. -/
def chars (t : Text) : Nat :=
  (t.filter (fun b => ¬ (128 ≤ b ∧ b < 192))).length

/-- `format!("{:0>width$}", t)` (`common/src/types/mod.rs:305`): zeros on the left up to `w`
characters. -/
def padLeft (w : Nat) (t : Text) : Text :=
  List.replicate (w - chars t) 48 ++ t

/-- `ByteEncodable::to_hex` of octet strings and arrays, `ByteArray::encode_hex` and `Display` of
`ByteSequence` (`common/src/types/mod.rs:102-104`, `140-144`, `287-289`, `322-324`). -/
def toHex (bs : List UInt8) : Text := encode bs

/-- `serialize_hex_vec`, `serialize_hex_array` and `Display` of `ByteArray`
(`common/src/utils/serde.rs:93-109`, `common/src/types/mod.rs:243-247`). -/
def serialize (bs : List UInt8) : Text := 48 :: 120 :: encode bs

/-- `deserialize_hex_vec` (`common/src/utils/serde.rs:66-91`). -/
def deserializeVec (t : Text) : Res :=
  match decode (strip t) with
  | some bs => .ok bs
  | none => .err .custom

/-- `deserialize_hex_array::<N>` (`common/src/utils/serde.rs:37-63`). -/
def deserializeArray (n : Nat) (t : Text) : Res :=
  match decode (strip t) with
  | some bs => if bs.length = n then .ok bs else .err .custom
  | none => .err .custom

/-- `Vec::<u8>::from_hex` (`common/src/types/mod.rs:110-114`). -/
def fromHexVec (t : Text) : Res :=
  match decode (strip t) with
  | some bs => .ok bs
  | none => .err .hexToByteArray

/-- `ByteArray::<N>::from_slice` (`common/src/types/mod.rs:291-296`). -/
def fromSlice (n : Nat) (bs : List UInt8) : Res :=
  if bs.length = n then .ok bs else .err .sliceToByteArray

/-- `ByteArray::<N>::from_hex` (`common/src/types/mod.rs:298-314`); the key and signature types
forward to it (`crypto/src/types/utils.rs:15-17`, `crypto/src/types/signatures.rs:46-48`). -/
def fromHexArray (n : Nat) (t : Text) : Res :=
  let s := strip t
  if s.length > n * 2 then .err .hexToByteArray
  else
    let padded := if s.length < n * 2 then padLeft (n * 2) s else s
    match decode padded with
    | some bs => fromSlice n bs
    | none => .err .hexToByteArray

end Fastroll.HexText
