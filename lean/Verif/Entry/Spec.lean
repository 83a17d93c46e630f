import Verif.Entry.Model
import Verif.Pvm.LayoutSpec
import Verif.Wire.Spec
/-!
# How the Gray Paper invokes programs

Standard programs (`Y`, appendix A.7), the result of an invocation (`R`, A.8), the host calls of each invocation
and the arguments of `Ψ_R` (B.3).
-/
namespace Fastroll.Entry.Paper
open Fastroll.Codec (paperFixed)
open Fastroll.Pvm

/-- The host calls, by number, that each invocation can make. -/
def calls : Kind → List Nat
  | .authorize => [0, 1]
  | .refine => [0, 1] ++ (List.range 8).map (6 + ·)
  | .accumulate => List.range 6 ++ (List.range 13).map (14 + ·)

/-- The parts of a standard program. -/
structure Parts where
  ro : Bytes
  rw : Bytes
  pages : Nat
  stack : Nat
  code : Bytes

/-- `E_3(|o|) ⌢ E_3(|w|) ⌢ E_2(z) ⌢ E_3(s) ⌢ o ⌢ w ⌢ E_4(|c|) ⌢ c`. -/
def Parts.layout (p : Parts) : Bytes :=
  paperFixed 3 p.ro.length ++ (paperFixed 3 p.rw.length ++ (paperFixed 2 p.pages ++ (paperFixed 3 p.stack ++
    (p.ro ++ (p.rw ++ (paperFixed 4 p.code.length ++ p.code))))))

structure Parts.Ok (p : Parts) : Prop where
  ro : p.ro.length < 2 ^ 24
  rw : p.rw.length < 2 ^ 24
  pages : p.pages < 2 ^ 16
  stack : p.stack < 2 ^ 24
  code : p.code.length < 2 ^ 32

/-- The sizes and data, as the description of the memory map (C14) takes them. -/
def Parts.sizes (p : Parts) : FProg :=
  { staticSize := p.ro.length, heapSize := p.rw.length, extraPages := p.pages, stackSize := p.stack, staticData := p.ro, heapData := p.rw }

/-- The registers a program starts with. -/
def startReg (n i : Nat) : Nat :=
  match i with
  | 0 => 2 ^ 32 - 2 ^ 16
  | 1 => 2 ^ 32 - 2 * 2 ^ 16 - 2 ^ 24
  | 7 => 2 ^ 32 - 2 ^ 16 - 2 ^ 24
  | 8 => n
  | _ => 0

/-- The state a program is started in. -/
structure Starts (p : Parts) (args : Bytes) (pc gas : Nat) (vm : VM) : Prop where
  pc : vm.pc = pc
  gas : vm.gas = gas
  count : vm.regs.length = 13
  regs : ∀ i, i < 13 → (vm.r i).toNat = startReg args.length i
  memory : ∃ r : Regions, r.Prescribed p.sizes args.length ∧ r.Separate ∧ r.Describes p.sizes args vm.mem.abs

/-- What an invocation gives. -/
inductive Res where
  | bytes (b : Bytes)
  | outOfGas
  | panic
  deriving DecidableEq

def Readable (m : PMem) (a n : Nat) : Prop := ∀ x, a ≤ x → x < a + n → m.perm x ≠ .inaccessible

/-- `R`: gas used and result, from the limit and the state in which the machine stopped. -/
structure Returns (limit : Nat) (exit : Exit) (vm : VM) (used : Nat) (o : Res) : Prop where
  used : (used : Int) = limit - max 0 vm.gas
  outOfGas : exit = .outOfGas → o = .outOfGas
  data : exit = .halt → Readable vm.mem.abs (vm.r 7).toNat (vm.r 8).toNat →
    o = .bytes ((List.range (vm.r 8).toNat).map fun i => vm.mem.abs.byte ((vm.r 7).toNat + i))
  nothing : exit = .halt → ¬ Readable vm.mem.abs (vm.r 7).toNat (vm.r 8).toNat → o = .bytes []
  panic : exit ≠ .outOfGas → exit ≠ .halt → o = .panic

/-- `E(c, i, w_s, ↕w_y, H(p))`. -/
def refineArgs (core item service : Nat) (payload hash : Bytes) : Bytes :=
  Wire.Spec.nat core ++ (Wire.Spec.nat item ++ (Wire.Spec.nat service ++ (Wire.Spec.blob payload ++ hash)))

/-- The result and exports of `Ψ_R` from those of `Ψ_M`. -/
def refined (used : Nat) (o : Res) (exports : List Bytes) : Wr.RefineRes :=
  match o with
  | .bytes b => { gas := used, output := .output b, exports := exports }
  | .outOfGas => { gas := used, output := .error .outOfGas, exports := [] }
  | .panic => { gas := used, output := .error .panic, exports := [] }

end Fastroll.Entry.Paper
