import Verif.Refine.Props

/-!
# C51: the gas of refinement's host calls

Every host call of refinement that gives a result costs ten units of gas; it is out of gas exactly if fewer are left, and
then it does nothing.
-/
namespace Fastroll.Refine
open Fastroll.Pvm Fastroll.Svc

/-- A result costs ten units and is not `out of gas`. -/
def Paid (r : HostResult) : Prop := r.charge = 10 ∧ r.exit ≠ .outOfGas

theorem paid_ret (c : Nat) : Paid (ret c) := ⟨rfl, fun h => by cases h⟩
theorem paid_panic : Paid hpanic := ⟨rfl, fun h => by cases h⟩

theorem paid_serve (vm : VM) (d : Bytes) (a b c : Nat) : Paid (serve vm d a b c) := by
  unfold serve
  cases u32? vm a with
  | none => exact paid_panic
  | some k =>
    dsimp only
    split
    · exact paid_panic
    · exact ⟨rfl, fun h => by cases h⟩

theorem paid_pages {x x' : RCtx} {n : Nat} {i : Inner} {m : Mem} {lo hi mode : Nat} {r : HostResult}
    (h : pagesAccess x n i m lo hi mode = (.ok r, x')) : Paid r := by
  unfold pagesAccess at h
  split at h <;> (cases h; exact paid_ret _)

theorem paid_invoke {x x' : RCtx} {n o : Nat} {i : Inner} {g : Nat} {regs : List Reg} {r : HostResult}
    (h : invokeRun x n o i g regs = (.ok r, x')) : Paid r := by
  unfold invokeRun at h
  repeat' split at h
  all_goals first | (cases h; done) | skip
  unfold invokeEnd at h
  split at h
  · cases h
  · cases h; exact ⟨rfl, fun h => by cases h⟩

/-- **C51**: with fewer than ten units of gas each of refinement's host calls ends the machine, out of gas, and leaves the
inner machines and the exported segments as they were; with ten or more it is never out of gas.  Either way a result
costs ten units, whatever the inner machine has used. -/
theorem C51_gas (other : Nat → VM → HostResult) (env : REnv) (h : Nat) (h6 : 6 ≤ h) (h13 : h ≤ 13) (vm : VM) (x : RCtx) :
    (vm.gas < 10 → refineCall other env h vm x = (.ok { exit := .outOfGas, charge := 10 }, x)) ∧
    (10 ≤ vm.gas → ∀ r x', refineCall other env h vm x = (.ok r, x') → r.charge = 10 ∧ r.exit ≠ .outOfGas) := by
  have hc : h = 6 ∨ h = 7 ∨ h = 8 ∨ h = 9 ∨ h = 10 ∨ h = 11 ∨ h = 12 ∨ h = 13 := by omega
  constructor
  · intro hg
    have ng : noGas vm = true := by unfold noGas; exact decide_eq_true hg
    rcases hc with rfl | rfl | rfl | rfl | rfl | rfl | rfl | rfl <;>
      simp [refineCall, hostHistorical, hostExport, hostMachine, hostPeek, hostPoke, hostPages, hostInvoke, hostExpunge, ng, oog, BASE_GAS]
  · intro hg r x' hr
    show Paid r
    have ng : noGas vm = false := enough hg
    rcases hc with rfl | rfl | rfl | rfl | rfl | rfl | rfl | rfl <;>
      simp only [refineCall, hostHistorical, hostExport, hostMachine, hostPeek, hostPoke, hostPages, hostInvoke, hostExpunge, ng,
        if_true, if_false, Bool.false_eq_true, Nat.reduceEqDiff] at hr
    all_goals repeat' split at hr
    all_goals first
      | (cases hr; done)
      | (cases hr; first | exact paid_ret _ | exact paid_panic | exact paid_serve .. | exact ⟨rfl, fun h => by cases h⟩)
      | exact paid_pages hr
      | exact paid_invoke hr
      | (injection hr with a b; injection a with a; subst a; first | exact paid_ret _ | exact paid_panic | exact paid_serve ..)

example : refineCall (fun _ _ => hpanic) Ex.env 13 { Ex.hvm with gas := 9 } {} = (.ok { exit := .outOfGas, charge := 10 }, {}) :=
  (C51_gas _ Ex.env 13 (by decide) (by decide) { Ex.hvm with gas := 9 } {}).1 (by decide)

/-- With ten units the same call gives a result. -/
example : refineCall (fun _ _ => hpanic) Ex.env 13 { Ex.hvm with gas := 10 } {} = (.ok (ret WHO), {}) ∧ (ret WHO).charge = 10 :=
  have h : refineCall (fun _ _ => hpanic) Ex.env 13 { Ex.hvm with gas := 10 } {} = (.ok (ret WHO), {}) := rfl
  ⟨h, ((C51_gas _ Ex.env 13 (by decide) (by decide) { Ex.hvm with gas := 10 } {}).2 (by decide) _ _ h).1⟩

end Fastroll.Refine
