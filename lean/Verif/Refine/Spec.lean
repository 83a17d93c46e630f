import Verif.Pvm.StepSpec
import Verif.Pvm.InterpSpec

/-!
# What the host functions of refinement should do

Stated over an ideal context: a machine is code, a protected byte map over all addresses and a program
counter; exported segments are a list of octet strings. Numbers are those of the Gray Paper's appendix
on the PVM's host functions.
-/
namespace Fastroll.Refine.Paper
open Fastroll.Pvm

abbrev Bytes := List UInt8

/-- An inner machine. -/
structure Mach where
  code : Bytes
  ram : PMem
  pc : Nat

/-- The inner machines by number, and the exported segments. -/
structure Ctx where
  mach : Nat → Option Mach
  exports : List Bytes

def Ctx.put (x : Ctx) (n : Nat) (m : Option Mach) : Ctx := { x with mach := fun k => if k = n then m else x.mach k }

/-- What the calling program sees: the call ends it, or registers 7 and 8 and a part of its memory are
written. -/
inductive Res where
  | panic
  | ret (r7 : Nat) (r8 : Option Nat) (write : Option (Nat × Bytes))

def WHO : Nat := 2 ^ 64 - 4
def FULL : Nat := 2 ^ 64 - 5
def OOB : Nat := 2 ^ 64 - 3
def HUH : Nat := 2 ^ 64 - 9

def CanRead (m : PMem) (a n : Nat) : Prop := ∀ x, a ≤ x → x < a + n → m.perm x ≠ .inaccessible
def CanWrite (m : PMem) (a n : Nat) : Prop := ∀ x, a ≤ x → x < a + n → m.perm x = .readWrite

/-- The octets of a range. -/
def octets (m : PMem) (a n : Nat) : Bytes := (List.range n).map fun i => m.byte (a + i)

/-- Writing octets. -/
def PMem.wrote (m : PMem) (a : Nat) (bs : Bytes) : PMem :=
  { m with byte := fun x => if a ≤ x ∧ x < a + bs.length then bs.getD (x - a) 0 else m.byte x }

/-- The memory of a fresh machine: zero everywhere and nowhere accessible. -/
def fresh : PMem := { byte := fun _ => 0, perm := fun _ => .inaccessible }

/-- Pages `p..p+c` after `pages` in a mode: zero if the mode is below 3, with the mode's access. -/
def PMem.paged (m : PMem) (p c mode : Nat) : PMem where
  byte x := if mode < 3 ∧ p ≤ x / 4096 ∧ x / 4096 < p + c then 0 else m.byte x
  perm x := if p ≤ x / 4096 ∧ x / 4096 < p + c then
      (if mode = 0 then .inaccessible else if mode = 1 ∨ mode = 3 then .readOnly else .readWrite)
    else m.perm x

/-- How the general invocation of an inner machine ends. -/
inductive Ended where
  | halt | panic | fault (a : Nat) | host (h : Nat) | outOfGas

def Ended.code : Ended → Nat
  | .halt => 0
  | .panic => 1
  | .fault _ => 2
  | .host _ => 3
  | .outOfGas => 4

def Ended.arg : Ended → Option Nat
  | .fault a => some a
  | .host h => some h
  | _ => none

/-- The number in eight octets of a string. -/
def num (bs : Bytes) (at_ : Nat) : Nat := ((List.range 8).map fun k => (bs.getD (at_ + k) 0).toNat * 256 ^ k).sum

/-- What the general invocation is: code, gas, state before; end, gas and state after. -/
abbrev Invocation := Bytes → Nat → Pvm.Paper.State → Ended → Int → Pvm.Paper.State → Prop

/-- `next code i j`: `j` is the position after the instruction at `i`. -/
abbrev NextPos := Bytes → Nat → Nat → Prop

/-- One host call, by its number, of a program with registers `φ` and memory `μ`. `offset` segments were
exported before, `ok` holds of well-formed code, `Ψ` is the general invocation. A new machine gets an
unused number (the paper takes the least one). -/
inductive Answers (offset : Nat) (ok : Bytes → Prop) (Ψ : Invocation) (next : NextPos) (φ : Nat → Nat) (μ : PMem) (x : Ctx) :
    Nat → Res → Ctx → Prop
  | exportPanic (h : ¬ CanRead μ (φ 7) (min (φ 8) 4104)) : Answers offset ok Ψ next φ μ x 7 .panic x
  | exportFull (h : CanRead μ (φ 7) (min (φ 8) 4104)) (hf : 3072 ≤ offset + x.exports.length) :
      Answers offset ok Ψ next φ μ x 7 (.ret FULL none none) x
  | export {seg} (h : CanRead μ (φ 7) (min (φ 8) 4104)) (hf : offset + x.exports.length < 3072) (hl : seg.length = 4104)
      (hs : ∀ i, i < 4104 → seg[i]? = some (if i < φ 8 then μ.byte (φ 7 + i) else 0)) :
      Answers offset ok Ψ next φ μ x 7 (.ret (offset + x.exports.length) none none) { x with exports := x.exports ++ [seg] }
  | machinePanic (h : ¬ CanRead μ (φ 7) (φ 8)) : Answers offset ok Ψ next φ μ x 8 .panic x
  | machineHuh (h : CanRead μ (φ 7) (φ 8)) (hk : ¬ ok (octets μ (φ 7) (φ 8))) :
      Answers offset ok Ψ next φ μ x 8 (.ret HUH none none) x
  | machine {n} (h : CanRead μ (φ 7) (φ 8)) (hk : ok (octets μ (φ 7) (φ 8))) (hn : x.mach n = none) :
      Answers offset ok Ψ next φ μ x 8 (.ret n none none) (x.put n (some ⟨octets μ (φ 7) (φ 8), fresh, φ 9⟩))
  | peekPanic (h : ¬ CanWrite μ (φ 8) (φ 10)) : Answers offset ok Ψ next φ μ x 9 .panic x
  | peekWho (h : CanWrite μ (φ 8) (φ 10)) (hm : x.mach (φ 7) = none) : Answers offset ok Ψ next φ μ x 9 (.ret WHO none none) x
  | peekOob {M} (h : CanWrite μ (φ 8) (φ 10)) (hm : x.mach (φ 7) = some M) (hr : ¬ CanRead M.ram (φ 9) (φ 10)) :
      Answers offset ok Ψ next φ μ x 9 (.ret OOB none none) x
  | peek {M} (h : CanWrite μ (φ 8) (φ 10)) (hm : x.mach (φ 7) = some M) (hr : CanRead M.ram (φ 9) (φ 10)) :
      Answers offset ok Ψ next φ μ x 9 (.ret 0 none (some (φ 8, octets M.ram (φ 9) (φ 10)))) x
  | pokePanic (h : ¬ CanRead μ (φ 8) (φ 10)) : Answers offset ok Ψ next φ μ x 10 .panic x
  | pokeWho (h : CanRead μ (φ 8) (φ 10)) (hm : x.mach (φ 7) = none) : Answers offset ok Ψ next φ μ x 10 (.ret WHO none none) x
  | pokeOob {M} (h : CanRead μ (φ 8) (φ 10)) (hm : x.mach (φ 7) = some M) (hr : ¬ CanWrite M.ram (φ 9) (φ 10)) :
      Answers offset ok Ψ next φ μ x 10 (.ret OOB none none) x
  | poke {M} (h : CanRead μ (φ 8) (φ 10)) (hm : x.mach (φ 7) = some M) (hr : CanWrite M.ram (φ 9) (φ 10)) :
      Answers offset ok Ψ next φ μ x 10 (.ret 0 none none)
        (x.put (φ 7) (some { M with ram := PMem.wrote M.ram (φ 9) (octets μ (φ 8) (φ 10)) }))
  | pagesWho (hm : x.mach (φ 7) = none) : Answers offset ok Ψ next φ μ x 11 (.ret WHO none none) x
  | pagesHuh {M} (hm : x.mach (φ 7) = some M) (h : 4 < φ 10 ∨ φ 8 < 16 ∨ 2 ^ 32 / 4096 ≤ φ 8 + φ 9) :
      Answers offset ok Ψ next φ μ x 11 (.ret HUH none none) x
  | pagesBare {M} (hm : x.mach (φ 7) = some M) (h : ¬ (4 < φ 10 ∨ φ 8 < 16 ∨ 2 ^ 32 / 4096 ≤ φ 8 + φ 9))
      (hb : 2 < φ 10 ∧ ¬ CanRead M.ram (φ 8 * 4096) (φ 9 * 4096)) : Answers offset ok Ψ next φ μ x 11 (.ret HUH none none) x
  | pages {M} (hm : x.mach (φ 7) = some M) (h : ¬ (4 < φ 10 ∨ φ 8 < 16 ∨ 2 ^ 32 / 4096 ≤ φ 8 + φ 9))
      (hb : ¬ (2 < φ 10 ∧ ¬ CanRead M.ram (φ 8 * 4096) (φ 9 * 4096))) :
      Answers offset ok Ψ next φ μ x 11 (.ret 0 none none) (x.put (φ 7) (some { M with ram := PMem.paged M.ram (φ 8) (φ 9) (φ 10) }))
  | invokePanic (h : ¬ CanWrite μ (φ 8) 112) : Answers offset ok Ψ next φ μ x 12 .panic x
  | invokeWho (h : CanWrite μ (φ 8) 112) (hm : x.mach (φ 7) = none) : Answers offset ok Ψ next φ μ x 12 (.ret WHO none none) x
  | invoke {M e g s bs pc} (h : CanWrite μ (φ 8) 112) (hm : x.mach (φ 7) = some M)
      (hr : Ψ M.code (Pvm.Paper.word μ (φ 8) 8)
        { reg := fun i => if i < 13 then Pvm.Paper.word μ (φ 8 + 8 + 8 * i) 8 else 0, mem := M.ram, pc := M.pc } e g s)
      (hl : bs.length = 112) (hg : (num bs 0 : Int) = g % 2 ^ 64) (hb : ∀ i, i < 13 → num bs (8 + 8 * i) = s.reg i)
      (hp : (∀ n, e = .host n → next M.code s.pc pc) ∧ ((∀ n, e ≠ .host n) → pc = s.pc)) :
      Answers offset ok Ψ next φ μ x 12 (.ret e.code e.arg (some (φ 8, bs))) (x.put (φ 7) (some ⟨M.code, s.mem, pc⟩))
  | expungeWho (hm : x.mach (φ 7) = none) : Answers offset ok Ψ next φ μ x 13 (.ret WHO none none) x
  | expunge {M} (hm : x.mach (φ 7) = some M) : Answers offset ok Ψ next φ μ x 13 (.ret M.pc none none) (x.put (φ 7) none)

end Fastroll.Refine.Paper
