import Verif.Pvm.InterpSpec
/-!
# Which operand bytes an instruction needs

From the Gray Paper's instruction formats, by opcode byte and the two bytes after it.
-/
namespace Fastroll.Pvm

/-- Operand bytes that an instruction with bytes `b0 b1 b2 …` must have to be decoded from its own
bytes. The paper instead reads the code as if zeros followed it, so there every instruction decodes. -/
def operandsNeeded (b0 b1 b2 : Nat) : Nat :=
  if b0 = 20 then 9
  else if 30 ≤ b0 ∧ b0 ≤ 33 then 1 + min 4 (b1 % 8)
  else if 50 ≤ b0 ∧ b0 ≤ 62 then 1
  else if 70 ≤ b0 ∧ b0 ≤ 73 then 1 + min 4 (b1 / 16 % 8)
  else if 80 ≤ b0 ∧ b0 ≤ 90 then 1 + min 4 (b1 / 16 % 8)
  else if 100 ≤ b0 ∧ b0 ≤ 111 then 1
  else if 120 ≤ b0 ∧ b0 ≤ 161 then 1
  else if 170 ≤ b0 ∧ b0 ≤ 175 then 1
  else if b0 = 180 then 2 + min 4 (b2 % 8)
  else if 190 ≤ b0 ∧ b0 ≤ 230 then 2
  else 0

/-- The instruction at `i`, with `d` operand bytes, has the operand bytes it needs. Bytes past the end
of the code count as zero. -/
def Complete (code : List UInt8) (i d : Nat) : Prop :=
  operandsNeeded (code.getD i 0).toNat (if 1 ≤ d then (code.getD (i + 1) 0).toNat else 0)
    (if 2 ≤ d then (code.getD (i + 2) 0).toNat else 0) ≤ d

instance (code : List UInt8) (i d : Nat) : Decidable (Complete code i d) := inferInstanceAs (Decidable (_ ≤ _))

end Fastroll.Pvm
