import Verif.Delta.Spec
import Verif.Svc.ExMerge

/-! # A concrete block, used only by the examples beside the theorems -/
namespace Fastroll.Delta.Ex
open Fastroll.Pvm Fastroll.Svc

/-- Service 1, the manager, makes 9 the manager and 6 the designate. Service 5 sends 10 tokens and 60 gas
to service 6 and yields. Service 6 yields. -/
def table : Nat → List Nat × VM
  | 1 => ([14], ExM.vm 9 40 6 5 0 0)
  | 5 => ([20, 25], ExM.vm 6 10 60 0 0 0)
  | _ => ([25], ExM.vm 8 0 0 0 0 0)

def W : World where
  g := ExM.g
  env := fun _ _ _ => Svc.Ex.env
  base := Svc.Ex.env
  mach := ExM.machine table
  seed := fun s => s

def χ : Chi := { manager := 1, assign := [1, 5], designate := 1, registrar := 5, always := [(1, 40)] }
def K : Consts := { total := 1000, perCore := 400, cores := 2 }
def queues : List (List Bytes) := [[[0]], [[1]]]

/-- Work for services 5 and 6; for service 5 again, which needs more gas than there is. -/
def reports : List Acc.Report := [⟨1, [], [], [⟨5, 500⟩, ⟨6, 100⟩]⟩, ⟨2, [], [], [⟨5, 950⟩]⟩]

def result : Option Summary :=
  match block W K χ queues [[7]] reports with
  | .ok s => some s
  | .error _ => none

end Fastroll.Delta.Ex
