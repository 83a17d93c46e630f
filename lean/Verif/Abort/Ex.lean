import Verif.Abort.LemmasModest
import Verif.Delta.PropsAcct

/-! # Concrete programs that abort a block, used only by the examples beside the theorems -/
namespace Fastroll.Abort.Ex
open Fastroll.Pvm Fastroll.Svc Fastroll.Delta

/-- Four pages of 256 octets: one below the zone, a heap page, one not accessible, a stack page. The heap page
starts with `1, 9, 8, 7`. -/
def mem : Mem where
  data := List.replicate 256 0 ++ [1, 9, 8, 7] ++ List.replicate 764 0
  acc := [.inaccessible, .readWrite, .inaccessible, .readWrite]
  pageSize := 256
  zone := 256
  heapStart := 256
  heapEnd := 512
  stackStart := 768

theorem laid : Laid mem := by
  refine ⟨⟨⟨by decide, by decide +kernel⟩, by decide, by decide, by decide, by decide +kernel, ?_⟩, ?_, by decide, by decide, by decide +kernel⟩
  · intro p hp
    match p, hp with
    | 0, hp => exact absurd hp (by decide)
    | 1, hp => exact absurd hp (by decide)
    | 2, hp => exact absurd hp (by decide)
    | 3, hp => exact absurd hp (by decide)
    | p + 4, hp =>
      have : mem.acc[p + 4]? = none := List.getElem?_eq_none (by show 4 ≤ p + 4; omega)
      rw [this] at hp; cases hp
  · intro x hx
    have : x / mem.pageSize = 0 := Nat.div_eq_of_lt hx
    rw [this]; rfl

def vm (r7 r8 r9 r10 : Nat) : VM :=
  { regs := [reg 0xFFFF0000, 0, 0, 0, 0, 0, 0, reg r7, reg r8, reg r9, reg r10, 0, 0], mem := mem, pc := 0, gas := 0 }

/-- The program text: five traps, then the octets. -/
def prog (octets : List UInt8) (marks : List Bool) : Option Prog :=
  match loadParts (List.replicate 5 0 ++ octets) (List.replicate 5 true ++ marks) [] with
  | .ok p => some p
  | .error _ => none

/-- The code `[6, n]` is the program `n`: the octets after the traps, their marks, the registers. -/
def text : Nat → (List UInt8 × List Bool) × VM
  -- halts
  | 0 => (([50, 0], [true, false]), vm 0 0 0 0)
  -- sends 5 tokens with 2^63 units of gas to service 5
  | 1 => (([10, 20, 50, 0], [true, false, true, false]), vm 5 5 (2 ^ 63) 256)
  -- asks for 256 octets of heap
  | 2 => (([101, 0x97, 50, 0], [true, false, true, false]), vm 0 0 256 0)
  -- loads the four octets from 1022
  | 3 => (([56, 7, 0xfe, 0x03, 50, 0], [true, false, false, false, true, false]), vm 0 0 0 0)
  -- halts with register 7 beyond the addresses
  | 4 => (([50, 0], [true, false]), vm (2 ^ 32) 0 0 0)
  -- asks for 255 octets of heap
  | 5 => (([101, 0x97, 50, 0], [true, false, true, false]), vm 0 0 255 0)
  -- makes an account
  | 6 => (([10, 18, 50, 0], [true, false, true, false]), vm 256 1 0 0)
  -- sends 5 tokens with 10 units of gas to service 5
  | _ => (([10, 20, 50, 0], [true, false, true, false]), vm 5 5 10 256)

/-- The code of services 1 and 5 is the program 0 and that of service 6 the program `n`. -/
def machine (n : Nat) : Machine where
  decode := some
  load := fun c =>
    match c with
    | [k] => (prog (text (if k = 6 then n else 0)).1.1 (text (if k = 6 then n else 0)).1.2).map fun p => (p, some (text (if k = 6 then n else 0)).2)
    | _ => none

def W (n : Nat) : World := { Delta.Ex.W with g := Delta.ExA.g, mach := machine n }
def χ : Chi := { manager := 99, assign := [99, 99], designate := 99, registrar := 99, always := [] }
def reports : List Acc.Report := [⟨1, [], [], [⟨6, 100⟩]⟩]

/-- How the block with the program `n` ends. -/
def ends (n : Nat) : Option Delta.Err :=
  match block (W n) Delta.Ex.K χ [[], []] [] reports with
  | .ok _ => none
  | .error e => some e

theorem laidOut (n : Nat) : LaidOut (machine n) := by
  intro code p v h
  unfold machine at h
  dsimp only at h
  split at h
  · rename_i k
    simp only [Option.map_eq_some_iff, Prod.mk.injEq, Option.some.injEq] at h
    obtain ⟨_, _, _, rfl⟩ := h
    have : ∀ j, (text j).2.mem = mem := by
      intro j; unfold text; split <;> rfl
    rw [this]; exact laid
  · cases h

theorem slots : Delta.ExA.g.SlotsOk 20 := by
  intro s k ts h
  simp only [Delta.ExA.g] at h
  split at h
  · cases h; unfold SlotsOk; decide
  · cases h

theorem given (n : Nat) : Given (W n) Delta.Ex.K χ where
  healthy := Delta.ExA.healthy
  laid := laidOut n
  tokens := ⟨30000, Delta.ExA.held, by decide⟩
  slots := slots
  slot := fun _ _ _ => rfl
  cores := fun _ _ _ => rfl
  total := by decide

theorem modest (n : Nat) (hn : n ≠ 6) (code : Bytes) (p : Prog) (init : Option VM) (h : (W n).mach.load code = some (p, init)) : Modest p := by
  have k : ∀ t ∈ [0, 1, 2, 3, 4, 5, 7], ∀ p, prog (text t).1.1 (text t).1.2 = some p → ∀ ins ∈ p.decoded, ins.op = .ecalli → ins.imm1.toNat % 256 ∉ Filling := by
    decide +kernel
  have k' : ∀ t, t ≠ 6 → ∀ p, prog (text t).1.1 (text t).1.2 = some p → ∀ ins ∈ p.decoded, ins.op = .ecalli → ins.imm1.toNat % 256 ∉ Filling := by
    intro t ht
    by_cases c : t ≤ 7
    · exact k t (by simp only [List.mem_cons, List.not_mem_nil, or_false]; omega)
    · have e : text t = text 7 := by
        match t, c with
        | t + 8, _ => rfl
        | 0, c | 1, c | 2, c | 3, c | 4, c | 5, c | 6, c | 7, c => exact absurd (by decide) c
      rw [e]; exact k 7 (by decide)
  change (machine n).load code = some (p, init) at h
  unfold machine at h
  dsimp only at h
  split at h
  · rename_i k
    simp only [Option.map_eq_some_iff, Prod.mk.injEq] at h
    obtain ⟨p', h1, rfl, _⟩ := h
    refine Delta.ExA.modest_of (k' _ ?_ _ h1)
    split
    · exact hn
    · decide
  · cases h

theorem tame (n : Nat) (hn : n ≠ 6) : Tame (W n) (fun _ => True) χ [[], []] reports :=
  modest_tame Delta.ExA.healthy ⟨30000, Delta.ExA.held, by decide⟩ (modest n hn)

/-- As `Delta.ExA.g`, but the code of service 6 has three octets. -/
def gBroken : Global := { Delta.ExA.g with preimages := fun s h => if s = 6 ∧ h = ExM.codeHash 6 then some [6, 6, 6] else Delta.ExA.g.preimages s h }

def args6 : AccArgs := { host := 6, gasLimit := 100, incoming := [], seed := 6 }
theorem fails : accumulate Delta.ExA.g Svc.Ex.env (machine 1) (start χ [[], []]) args6 = .error .tooLargeGas := by
  have h : (match accumulate Delta.ExA.g Svc.Ex.env (machine 1) (start χ [[], []]) args6 with | .error .tooLargeGas => true | _ => false) = true := by decide +kernel
  generalize accumulate Delta.ExA.g Svc.Ex.env (machine 1) (start χ [[], []]) args6 = r at h
  split at h
  · rfl
  · cases h

theorem ends_eq {n : Nat} {e : Delta.Err} (h : ends n = some e) : block (W n) Delta.Ex.K χ [[], []] [] reports = .error e := by
  unfold ends at h
  split at h
  · cases h
  · rename_i he; rw [he, Option.some.inj h]

def theCtx : Ctx Global :=
  (freshCtx 6 { boxes := [], staging := none, authQueue := [[], []], manager := 99, assign := { confirmed := [99, 99] }, designate := { confirmed := 99 }, registrar := { confirmed := 99 }, always := [] } 70000).view Delta.ExA.g
def pair : Pair Global := { x := theCtx, y := theCtx }
theorem ready : Ready Svc.Ex.env pair.x where
  alive := rfl
  slots := slots
  tokens := ⟨30000, ⟨30000, Delta.ExA.held, rfl⟩, by decide⟩
  next := ⟨by unfold Public; decide, rfl⟩
  sized := ⟨rfl, nofun, nofun⟩

def the (n : Nat) : Prog := (prog (text n).1.1 (text n).1.2).getD ⟨[], [], [], [], [], [], []⟩

end Fastroll.Abort.Ex
