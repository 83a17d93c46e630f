import Verif.Pvm.InterpModel
/-!
# What program layout and execution should be

Written from the Gray Paper's definitions (instruction skip, basic blocks), with byte values
instead of the model's decoded opcodes, and relations instead of the model's loops.
-/
namespace Fastroll.Pvm

/-- An instruction starts at `i`. -/
def StartsAt (mask : List Bool) (i : Nat) : Prop := mask[i]? = some true

instance (mask : List Bool) (i : Nat) : Decidable (StartsAt mask i) := inferInstanceAs (Decidable (_ = _))

/-- `d` is the number of operand bytes skipped after the opcode at `i`: the distance to the next
instruction or to the end of the code, at most 24. -/
structure IsSkip (mask : List Bool) (len i d : Nat) : Prop where
  cap : d ≤ 24
  inside : i + 1 + d ≤ len
  operand : ∀ j, j < d → ¬ StartsAt mask (i + 1 + j)
  stop : d = 24 ∨ i + 1 + d = len ∨ StartsAt mask (i + 1 + d)

/-- Bytes that are block-terminating opcodes: trap, fallthrough, jump, jump_ind, load_imm_jump and
the branches, load_imm_jump_ind. -/
def terminatorBytes : List Nat :=
  [0, 1, 40, 50, 80, 81, 82, 83, 84, 85, 86, 87, 88, 89, 90, 170, 171, 172, 173, 174, 175, 180]

/-- Bytes that are opcodes at all. -/
def opcodeBytes : List Nat :=
  [0, 1, 10, 20] ++ List.range' 30 4 ++ [40] ++ List.range' 50 13 ++ List.range' 70 4 ++ List.range' 80 11 ++
    List.range' 100 12 ++ List.range' 120 42 ++ List.range' 170 6 ++ [180] ++ List.range' 190 41

/-- The byte at `i` ends a basic block: a terminator, or no opcode (which traps). -/
def EndsBlock (code : List UInt8) (i : Nat) : Prop :=
  ∃ b, code[i]? = some b ∧ (b.toNat ∈ terminatorBytes ∨ b.toNat ∉ opcodeBytes)

/-- A basic block starts at `t`: the beginning, or the position after a terminator. -/
def IsBlockStart (code : List UInt8) (mask : List Bool) (t : Nat) : Prop :=
  t = 0 ∨ ∃ m d, StartsAt mask m ∧ EndsBlock code m ∧ IsSkip mask code.length m d ∧ t = m + 1 + d

/-- The bytes an instruction occupies. -/
def Occupies (mask : List Bool) (len i x : Nat) : Prop := ∃ d, IsSkip mask len i d ∧ i ≤ x ∧ x < i + 1 + d

/-- The comparison a branch makes, on unsigned or two's complement values. -/
def Cond.Holds (c : Cond) (a b : Reg) : Prop :=
  match c with
  | .eq => a.toNat = b.toNat
  | .ne => a.toNat ≠ b.toNat
  | .ltU => a.toNat < b.toNat
  | .leU => a.toNat ≤ b.toNat
  | .geU => b.toNat ≤ a.toNat
  | .gtU => b.toNat < a.toNat
  | .ltS => a.toInt < b.toInt
  | .leS => a.toInt ≤ b.toInt
  | .geS => b.toInt ≤ a.toInt
  | .gtS => b.toInt < a.toInt

/-- The unsigned value of little-endian octets. -/
def leValue : List UInt8 → Nat
  | [] => 0
  | b :: bs => b.toNat + 256 * leValue bs

/-- The two's complement value of little-endian octets. -/
def leSigned (bs : List UInt8) : Int := (BitVec.ofNat (8 * bs.length) (leValue bs)).toInt

end Fastroll.Pvm
