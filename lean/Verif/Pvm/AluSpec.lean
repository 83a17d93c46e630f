import Verif.Pvm.AluModel
/-!
# What the instructions should compute

Stated over plain naturals and integers following the Gray Paper's appendix A:
`Z w` reads a `w`-bit natural as two's complement, `Zinv` is its inverse at 64 bits,
`X4` sign-extends a 32-bit natural to 64 bits. A specification gives the number every
result must equal.
-/
namespace Fastroll.Pvm

/-- Two's complement reading. -/
def Z (w : Nat) (a : Nat) : Int := if a < 2 ^ (w - 1) then a else (a : Int) - 2 ^ w

/-- The 64-bit natural congruent to an integer. -/
def Zinv (x : Int) : Nat := (x % 2 ^ 64).toNat

/-- `X_4`: sign extension from 32 to 64 bits. -/
def X4 (x : Nat) : Nat := x + x / 2 ^ 31 * (2 ^ 64 - 2 ^ 32)

/-- Bit `i`. -/
def bit (x i : Nat) : Nat := x / 2 ^ i % 2

/-- A natural from its low `n` bits. -/
def ofBits (n : Nat) (f : Nat → Nat) : Nat := ((List.range n).map fun i => f i * 2 ^ i).sum

/-- Truncated remainder with the sign of the dividend (`smod` of the paper). -/
def paperSmod (a b : Int) : Int :=
  if b = 0 then a else a.sign * ((a.natAbs % b.natAbs : Nat) : Int)

/-- Quotient rounded towards zero. -/
def paperRtz (a b : Int) : Int := a.sign * b.sign * ((a.natAbs / b.natAbs : Nat) : Int)

/-- The number `Op2` must produce. -/
def Op2.Spec : Op2 → (a r : Nat) → Prop
  | .moveReg, a, r => r = a
  | .countSetBits64, a, r => r = ((List.range 64).map (bit a)).sum
  | .countSetBits32, a, r => r = ((List.range 32).map (bit a)).sum
  -- the largest count `r ≤ w` of zero bits from the top
  | .leadingZeroBits64, a, r => r ≤ 64 ∧ a < 2 ^ (64 - r) ∧ (r < 64 → 2 ^ (63 - r) ≤ a)
  | .leadingZeroBits32, a, r =>
    r ≤ 32 ∧ a % 2 ^ 32 < 2 ^ (32 - r) ∧ (r < 32 → 2 ^ (31 - r) ≤ a % 2 ^ 32)
  | .trailingZeroBits64, a, r => r ≤ 64 ∧ 2 ^ r ∣ a ∧ (r < 64 → ¬ 2 ^ (r + 1) ∣ a)
  | .trailingZeroBits32, a, r =>
    r ≤ 32 ∧ 2 ^ r ∣ a % 2 ^ 32 ∧ (r < 32 → ¬ 2 ^ (r + 1) ∣ a % 2 ^ 32)
  | .signExtend8, a, r => r = Zinv (Z 8 (a % 2 ^ 8))
  | .signExtend16, a, r => r = Zinv (Z 16 (a % 2 ^ 16))
  | .zeroExtend16, a, r => r = a % 2 ^ 16
  | .reverseBytes, a, r => r < 2 ^ 64 ∧ ∀ i, i < 8 → r / 256 ^ i % 256 = a / 256 ^ (7 - i) % 256

/-- The number an immediate instruction must produce: `d` the old destination, `b` the
source register, `i` the immediate. -/
def OpImm.spec : OpImm → (d b i : Nat) → Nat
  | .addImm32, _, b, i => X4 ((b + i) % 2 ^ 32)
  | .andImm, _, b, i => ofBits 64 fun k => bit b k * bit i k
  | .xorImm, _, b, i => ofBits 64 fun k => (bit b k + bit i k) % 2
  | .orImm, _, b, i => ofBits 64 fun k => max (bit b k) (bit i k)
  | .mulImm32, _, b, i => X4 (b * i % 2 ^ 32)
  | .setLtUImm, _, b, i => if b < i then 1 else 0
  | .setLtSImm, _, b, i => if Z 64 b < Z 64 i then 1 else 0
  | .shloLImm32, _, b, i => X4 (b * 2 ^ (i % 32) % 2 ^ 32)
  | .shloRImm32, _, b, i => X4 (b % 2 ^ 32 / 2 ^ (i % 32))
  | .sharRImm32, _, b, i => Zinv (Z 32 (b % 2 ^ 32) / 2 ^ (i % 32))
  | .negAddImm32, _, b, i => X4 (((i : Int) - b) % 2 ^ 32).toNat
  | .setGtUImm, _, b, i => if i < b then 1 else 0
  | .setGtSImm, _, b, i => if Z 64 i < Z 64 b then 1 else 0
  | .shloLImmAlt32, _, b, i => X4 (i * 2 ^ (b % 32) % 2 ^ 32)
  | .shloRImmAlt32, _, b, i => X4 (i % 2 ^ 32 / 2 ^ (b % 32))
  | .sharRImmAlt32, _, b, i => Zinv (Z 32 (i % 2 ^ 32) / 2 ^ (b % 32))
  | .cmovIzImm, d, b, i => if b = 0 then i else d
  | .cmovNzImm, d, b, i => if b = 0 then d else i
  | .addImm64, _, b, i => (b + i) % 2 ^ 64
  | .mulImm64, _, b, i => b * i % 2 ^ 64
  | .shloLImm64, _, b, i => b * 2 ^ (i % 64) % 2 ^ 64
  | .shloRImm64, _, b, i => b / 2 ^ (i % 64)
  | .sharRImm64, _, b, i => Zinv (Z 64 b / 2 ^ (i % 64))
  | .negAddImm64, _, b, i => Zinv ((i : Int) - b)
  | .shloLImmAlt64, _, b, i => i * 2 ^ (b % 64) % 2 ^ 64
  | .shloRImmAlt64, _, b, i => i / 2 ^ (b % 64)
  | .sharRImmAlt64, _, b, i => Zinv (Z 64 i / 2 ^ (b % 64))
  | .rotR64Imm, _, b, i => ofBits 64 fun k => bit b ((k + i) % 64)
  | .rotR64ImmAlt, _, b, i => ofBits 64 fun k => bit i ((k + b) % 64)
  | .rotR32Imm, _, b, i => X4 (ofBits 32 fun k => bit b ((k + i) % 32))
  | .rotR32ImmAlt, _, b, i => X4 (ofBits 32 fun k => bit i ((k + b) % 32))

/-- The number a three-register instruction must produce. -/
def Op3.spec : Op3 → (d a b : Nat) → Nat
  | .add32, _, a, b => X4 ((a + b) % 2 ^ 32)
  | .sub32, _, a, b => X4 (((a : Int) - b) % 2 ^ 32).toNat
  | .mul32, _, a, b => X4 (a * b % 2 ^ 32)
  | .divU32, _, a, b =>
    if b % 2 ^ 32 = 0 then 2 ^ 64 - 1 else X4 (a % 2 ^ 32 / (b % 2 ^ 32))
  | .divS32, _, a, b =>
    if Z 32 (b % 2 ^ 32) = 0 then 2 ^ 64 - 1
    else if Z 32 (a % 2 ^ 32) = -2 ^ 31 ∧ Z 32 (b % 2 ^ 32) = -1 then Zinv (Z 32 (a % 2 ^ 32))
    else Zinv (paperRtz (Z 32 (a % 2 ^ 32)) (Z 32 (b % 2 ^ 32)))
  | .remU32, _, a, b =>
    if b % 2 ^ 32 = 0 then X4 (a % 2 ^ 32) else X4 (a % 2 ^ 32 % (b % 2 ^ 32))
  | .remS32, _, a, b =>
    if Z 32 (a % 2 ^ 32) = -2 ^ 31 ∧ Z 32 (b % 2 ^ 32) = -1 then 0
    else Zinv (paperSmod (Z 32 (a % 2 ^ 32)) (Z 32 (b % 2 ^ 32)))
  | .shloL32, _, a, b => X4 (a * 2 ^ (b % 32) % 2 ^ 32)
  | .shloR32, _, a, b => X4 (a % 2 ^ 32 / 2 ^ (b % 32))
  | .sharR32, _, a, b => Zinv (Z 32 (a % 2 ^ 32) / 2 ^ (b % 32))
  | .add64, _, a, b => (a + b) % 2 ^ 64
  | .sub64, _, a, b => Zinv ((a : Int) - b)
  | .mul64, _, a, b => a * b % 2 ^ 64
  | .divU64, _, a, b => if b = 0 then 2 ^ 64 - 1 else a / b
  | .divS64, _, a, b =>
    if b = 0 then 2 ^ 64 - 1
    else if Z 64 a = -2 ^ 63 ∧ Z 64 b = -1 then a
    else Zinv (paperRtz (Z 64 a) (Z 64 b))
  | .remU64, _, a, b => if b = 0 then a else a % b
  | .remS64, _, a, b =>
    if Z 64 a = -2 ^ 63 ∧ Z 64 b = -1 then 0 else Zinv (paperSmod (Z 64 a) (Z 64 b))
  | .shloL64, _, a, b => a * 2 ^ (b % 64) % 2 ^ 64
  | .shloR64, _, a, b => a / 2 ^ (b % 64)
  | .sharR64, _, a, b => Zinv (Z 64 a / 2 ^ (b % 64))
  | .and, _, a, b => ofBits 64 fun k => bit a k * bit b k
  | .xor, _, a, b => ofBits 64 fun k => (bit a k + bit b k) % 2
  | .or, _, a, b => ofBits 64 fun k => Max.max (bit a k) (bit b k)
  | .mulUpperSS, _, a, b => Zinv (Z 64 a * Z 64 b / 2 ^ 64)
  | .mulUpperUU, _, a, b => a * b / 2 ^ 64
  | .mulUpperSU, _, a, b => Zinv (Z 64 a * b / 2 ^ 64)
  | .setLtU, _, a, b => if a < b then 1 else 0
  | .setLtS, _, a, b => if Z 64 a < Z 64 b then 1 else 0
  | .cmovIz, d, a, b => if b = 0 then a else d
  | .cmovNz, d, a, b => if b = 0 then d else a
  | .rotL64, _, a, b => ofBits 64 fun k => bit a ((k + 64 - b % 64) % 64)
  | .rotL32, _, a, b => X4 (ofBits 32 fun k => bit a ((k + 32 - b % 32) % 32))
  | .rotR64, _, a, b => ofBits 64 fun k => bit a ((k + b) % 64)
  | .rotR32, _, a, b => X4 (ofBits 32 fun k => bit a ((k + b) % 32))
  | .andInv, _, a, b => ofBits 64 fun k => bit a k * (1 - bit b k)
  | .orInv, _, a, b => ofBits 64 fun k => Max.max (bit a k) (1 - bit b k)
  | .xnor, _, a, b => ofBits 64 fun k => 1 - (bit a k + bit b k) % 2
  | .max, _, a, b => Zinv (Max.max (Z 64 a) (Z 64 b))
  | .maxU, _, a, b => Max.max a b
  | .min, _, a, b => Zinv (Min.min (Z 64 a) (Z 64 b))
  | .minU, _, a, b => Min.min a b

end Fastroll.Pvm
