/-!
# Model of the PVM's arithmetic

Transcribes `/repo/pvm/pvm-core/src/utils.rs` and the register-to-register
instructions of `/repo/pvm/pvm-core/src/program/instruction/set.rs`.

A register is a `BitVec 64` (`u64`). Signed machine integers are `Int`s produced by
explicit casts: `asI w` is Rust's `as i{w}`, `BitVec.ofInt w` is `as u{w}`. Rust's signed
`/` and `%` truncate, so they are `Int.tdiv` and `Int.tmod`; `>>` on a signed integer is
the floor shift.
-/
namespace Fastroll.Pvm

abbrev Reg := BitVec 64

/-- Rust `x as i{w}`: keep the low `w` bits, read them as two's complement. -/
def asI (w : Nat) (x : Int) : Int := (BitVec.ofInt w x).toInt

/-- `u8_to_i8`, `u16_to_i16`, `u32_to_i32`, `u64_to_i64` (`Z_n`), utils.rs lines 118-160:
`w` is the bit width, `a` the unsigned value. -/
def uToI (w : Nat) (a : Nat) : Int :=
  if a < 1 <<< (w - 1) then asI w a else asI w ((a : Int) - (1 <<< w : Nat))

/-- `i64_to_u64` (`Z_8⁻¹`), utils.rs lines 187-192. -/
def i64ToU64 (a : Int) : Reg :=
  let modulus : Int := (1 <<< 64 : Nat)
  BitVec.ofInt 64 ((modulus + a).tmod modulus)

/-- `sext`, utils.rs lines 286-306: `n` octets of the unsigned value `val`. -/
def sext (n : Nat) (val : Nat) : Reg :=
  if n = 0 then 0
  else
    let msb := (val >>> (8 * n - 1)) &&& 1
    if msb = 1 then BitVec.ofInt 64 ((val : Int) + (((2 ^ 64 - 1 : Nat) : Int) - ((1 <<< (8 * n) : Nat) : Int) + 1))
    else BitVec.ofNat 64 val

/-- `smod_32` / `smod_64`, utils.rs lines 308-328, at width `w`. -/
def smod (w : Nat) (a b : Int) : Int :=
  if b = 0 then a
  else
    let sgn : Int := if a > 0 then 1 else -1
    asI w (sgn * (asI w (a.natAbs : Int)).tmod (asI w (b.natAbs : Int)))

/-- `x & 0xFFFF_FFFF`. -/
def lo32 (x : Reg) : Reg := x &&& 0xFFFFFFFF#64

/-- `u64_to_bits(x).count_ones()` / `u32_to_bits`: set bits among the low `w`. -/
def countOnes (w : Nat) (x : Reg) : Nat :=
  (List.range w).countP fun i => x.getLsbD i

/-- `leading_zeros` of the `w`-bit value: zeros met going down from bit `w-1`. -/
def leadingZeros (w : Nat) (x : Reg) : Nat :=
  ((List.range w).takeWhile fun i => !x.getLsbD (w - 1 - i)).length

/-- `trailing_zeros` of the `w`-bit value: zeros met going up from bit 0. -/
def trailingZeros (w : Nat) (x : Reg) : Nat :=
  ((List.range w).takeWhile fun i => !x.getLsbD i).length

/-- `u64::swap_bytes`. -/
def swapBytes (x : Reg) : Reg :=
  BitVec.ofNat 64 ((List.range 8).foldl (fun acc i => acc * 256 + x.toNat / 256 ^ i % 256) 0)

/-- `u64::rotate_right(r as u32)`; Rust reduces the count modulo 64. -/
def rotr64 (x : Reg) (r : Nat) : Reg := x.rotateRight (r % 2 ^ 32 % 64)
def rotl64 (x : Reg) (r : Nat) : Reg := x.rotateLeft (r % 2 ^ 32 % 64)
/-- `(x as u32).rotate_right(r as u32)`. -/
def rotr32 (x : Reg) (r : Nat) : BitVec 32 := (x.setWidth 32).rotateRight (r % 2 ^ 32 % 32)
def rotl32 (x : Reg) (r : Nat) : BitVec 32 := (x.setWidth 32).rotateLeft (r % 2 ^ 32 % 32)

/-- Two-register instructions, opcodes 100 and 102-111. -/
inductive Op2 where
  | moveReg | countSetBits64 | countSetBits32 | leadingZeroBits64 | leadingZeroBits32
  | trailingZeroBits64 | trailingZeroBits32 | signExtend8 | signExtend16 | zeroExtend16
  | reverseBytes
deriving DecidableEq, Repr

/-- set.rs lines 778-790 (move_reg) and 819-946: the value written to `rd` from `rs1`. -/
def Op2.eval : Op2 → Reg → Reg
  | .moveReg, a => a
  | .countSetBits64, a => BitVec.ofNat 64 (countOnes 64 a)
  | .countSetBits32, a => BitVec.ofNat 64 (countOnes 32 (lo32 a))
  | .leadingZeroBits64, a => BitVec.ofNat 64 (leadingZeros 64 a)
  | .leadingZeroBits32, a => BitVec.ofNat 64 (leadingZeros 32 (lo32 a))
  | .trailingZeroBits64, a => BitVec.ofNat 64 (trailingZeros 64 a)
  | .trailingZeroBits32, a => BitVec.ofNat 64 (trailingZeros 32 (lo32 a))
  | .signExtend8, a => i64ToU64 (uToI 8 (a &&& 0xFF#64).toNat)
  | .signExtend16, a => i64ToU64 (uToI 16 (a &&& 0xFFFF#64).toNat)
  | .zeroExtend16, a => a &&& 0xFFFF#64
  | .reverseBytes, a => swapBytes a

/-- Two registers and an immediate, opcodes 131-161. -/
inductive OpImm where
  | addImm32 | andImm | xorImm | orImm | mulImm32 | setLtUImm | setLtSImm | shloLImm32 | shloRImm32
  | sharRImm32 | negAddImm32 | setGtUImm | setGtSImm | shloLImmAlt32 | shloRImmAlt32 | sharRImmAlt32
  | cmovIzImm | cmovNzImm | addImm64 | mulImm64 | shloLImm64 | shloRImm64 | sharRImm64 | negAddImm64
  | shloLImmAlt64 | shloRImmAlt64 | sharRImmAlt64 | rotR64Imm | rotR64ImmAlt | rotR32Imm | rotR32ImmAlt
deriving DecidableEq, Repr

/-- set.rs lines 1163-1595: the value written to `rs1` from `rs1` (`d`), `rs2` (`b`) and the
immediate `i`. -/
def OpImm.eval : OpImm → (d b i : Reg) → Reg
  | .addImm32, _, b, i => sext 4 (lo32 (b + i)).toNat
  | .andImm, _, b, i => b &&& i
  | .xorImm, _, b, i => b ^^^ i
  | .orImm, _, b, i => b ||| i
  | .mulImm32, _, b, i => sext 4 (lo32 (b * i)).toNat
  | .setLtUImm, _, b, i => if b.toNat < i.toNat then 1 else 0
  | .setLtSImm, _, b, i => if uToI 64 b.toNat < uToI 64 i.toNat then 1 else 0
  | .shloLImm32, _, b, i => sext 4 (lo32 (b <<< (i &&& 0x1F#64).toNat)).toNat
  | .shloRImm32, _, b, i => sext 4 (lo32 b >>> (i &&& 0x1F#64).toNat).toNat
  | .sharRImm32, _, b, i => i64ToU64 (uToI 32 (lo32 b).toNat >>> (i &&& 0x1F#64).toNat)
  | .negAddImm32, _, b, i => sext 4 (lo32 (i + (1#64 <<< 32) - b)).toNat
  | .setGtUImm, _, b, i => if b.toNat > i.toNat then 1 else 0
  | .setGtSImm, _, b, i => if uToI 64 b.toNat > uToI 64 i.toNat then 1 else 0
  | .shloLImmAlt32, _, b, i => sext 4 (lo32 (i <<< (b &&& 0x1F#64).toNat)).toNat
  | .shloRImmAlt32, _, b, i => sext 4 (lo32 i >>> (b &&& 0x1F#64).toNat).toNat
  | .sharRImmAlt32, _, b, i => i64ToU64 (uToI 32 (lo32 i).toNat >>> (b &&& 0x1F#64).toNat)
  | .cmovIzImm, d, b, i => if b = 0 then i else d
  | .cmovNzImm, d, b, i => if b ≠ 0 then i else d
  | .addImm64, _, b, i => b + i
  | .mulImm64, _, b, i => b * i
  | .shloLImm64, _, b, i => sext 8 (b <<< (i &&& 0x3F#64).toNat).toNat
  | .shloRImm64, _, b, i => sext 8 (b >>> (i &&& 0x3F#64).toNat).toNat
  | .sharRImm64, _, b, i => i64ToU64 (uToI 64 b.toNat >>> (i &&& 0x3F#64).toNat)
  | .negAddImm64, _, b, i => i - b
  | .shloLImmAlt64, _, b, i => i <<< (b &&& 0x3F#64).toNat
  | .shloRImmAlt64, _, b, i => i >>> (b &&& 0x3F#64).toNat
  | .sharRImmAlt64, _, b, i => i64ToU64 (uToI 64 i.toNat >>> (b &&& 0x3F#64).toNat)
  | .rotR64Imm, _, b, i => rotr64 b i.toNat
  | .rotR64ImmAlt, _, b, i => rotr64 i b.toNat
  | .rotR32Imm, _, b, i => sext 4 (rotr32 b i.toNat).toNat
  | .rotR32ImmAlt, _, b, i => sext 4 (rotr32 i b.toNat).toNat

/-- Three-register instructions, opcodes 190-230. -/
inductive Op3 where
  | add32 | sub32 | mul32 | divU32 | divS32 | remU32 | remS32 | shloL32 | shloR32 | sharR32
  | add64 | sub64 | mul64 | divU64 | divS64 | remU64 | remS64 | shloL64 | shloR64 | sharR64
  | and | xor | or | mulUpperSS | mulUpperUU | mulUpperSU | setLtU | setLtS | cmovIz | cmovNz
  | rotL64 | rotL32 | rotR64 | rotR32 | andInv | orInv | xnor | max | maxU | min | minU
deriving DecidableEq, Repr

/-- set.rs lines 1728-2338: the value written to `rd` from `rd` (`d`), `rs1` (`a`) and
`rs2` (`b`). -/
def Op3.eval : Op3 → (d a b : Reg) → Reg
  | .add32, _, a, b => sext 4 (lo32 (a + b)).toNat
  | .sub32, _, a, b => sext 4 (lo32 (a + (1#64 <<< 32) - lo32 b)).toNat
  | .mul32, _, a, b => sext 4 (lo32 (a * b)).toNat
  | .divU32, _, a, b =>
    if lo32 b = 0 then BitVec.allOnes 64 else sext 4 ((lo32 a).toNat / (lo32 b).toNat)
  | .divS32, _, a, b =>
    let dividend := uToI 32 (lo32 a).toNat
    let divisor := uToI 32 (lo32 b).toNat
    if divisor = 0 then BitVec.allOnes 64
    else if dividend = -2 ^ 31 ∧ divisor = -1 then i64ToU64 dividend
    else i64ToU64 (dividend.tdiv divisor)
  | .remU32, _, a, b =>
    if lo32 b = 0 then sext 4 (lo32 a).toNat else sext 4 ((lo32 a).toNat % (lo32 b).toNat)
  | .remS32, _, a, b =>
    let dividend := uToI 32 (lo32 a).toNat
    let divisor := uToI 32 (lo32 b).toNat
    if dividend = -2 ^ 31 ∧ divisor = -1 then 0 else i64ToU64 (smod 32 dividend divisor)
  | .shloL32, _, a, b => sext 4 (lo32 (a <<< (b &&& 0x1F#64).toNat)).toNat
  | .shloR32, _, a, b => sext 4 (lo32 a >>> (b &&& 0x1F#64).toNat).toNat
  | .sharR32, _, a, b => i64ToU64 (uToI 32 (lo32 a).toNat >>> (b &&& 0x1F#64).toNat)
  | .add64, _, a, b => a + b
  | .sub64, _, a, b => a - b
  | .mul64, _, a, b => a * b
  | .divU64, _, a, b => if b = 0 then BitVec.allOnes 64 else BitVec.ofNat 64 (a.toNat / b.toNat)
  | .divS64, _, a, b =>
    let dividend := uToI 64 a.toNat
    let divisor := uToI 64 b.toNat
    if divisor = 0 then BitVec.allOnes 64
    else if dividend = -2 ^ 63 ∧ divisor = -1 then a
    else i64ToU64 (dividend.tdiv divisor)
  | .remU64, _, a, b => if b = 0 then a else BitVec.ofNat 64 (a.toNat % b.toNat)
  | .remS64, _, a, b =>
    let dividend := uToI 64 a.toNat
    let divisor := uToI 64 b.toNat
    if dividend = -2 ^ 63 ∧ divisor = -1 then 0 else i64ToU64 (smod 64 dividend divisor)
  | .shloL64, _, a, b => a <<< (b &&& 0x3F#64).toNat
  | .shloR64, _, a, b => a >>> (b &&& 0x3F#64).toNat
  | .sharR64, _, a, b => i64ToU64 (uToI 64 a.toNat >>> (b &&& 0x3F#64).toNat)
  | .and, _, a, b => a &&& b
  | .xor, _, a, b => a ^^^ b
  | .or, _, a, b => a ||| b
  | .mulUpperSS, _, a, b => i64ToU64 (asI 64 ((uToI 64 a.toNat * uToI 64 b.toNat) >>> 64))
  | .mulUpperUU, _, a, b => BitVec.ofNat 64 ((a.toNat * b.toNat) >>> 64)
  | .mulUpperSU, _, a, b => i64ToU64 (asI 64 ((uToI 64 a.toNat * (b.toNat : Int)) >>> 64))
  | .setLtU, _, a, b => if a.toNat < b.toNat then 1 else 0
  | .setLtS, _, a, b => if uToI 64 a.toNat < uToI 64 b.toNat then 1 else 0
  | .cmovIz, d, a, b => if b = 0 then a else d
  | .cmovNz, d, a, b => if b ≠ 0 then a else d
  | .rotL64, _, a, b => rotl64 a b.toNat
  | .rotL32, _, a, b => sext 4 (rotl32 a b.toNat).toNat
  | .rotR64, _, a, b => rotr64 a b.toNat
  | .rotR32, _, a, b => sext 4 (rotr32 a b.toNat).toNat
  | .andInv, _, a, b => a &&& ~~~b
  | .orInv, _, a, b => a ||| ~~~b
  | .xnor, _, a, b => ~~~(a ^^^ b)
  | .max, _, a, b => i64ToU64 (Max.max (uToI 64 a.toNat) (uToI 64 b.toNat))
  | .maxU, _, a, b => BitVec.ofNat 64 (Max.max a.toNat b.toNat)
  | .min, _, a, b => i64ToU64 (Min.min (uToI 64 a.toNat) (uToI 64 b.toNat))
  | .minU, _, a, b => BitVec.ofNat 64 (Min.min a.toNat b.toNat)

end Fastroll.Pvm
