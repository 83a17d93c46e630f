import Verif.Node.Lemmas

/-! # A concrete chain, used only by the examples beside the theorems -/
namespace Fastroll.Node.Ex
open Fastroll.Safrole (VKey)

/-- Service 1 designates the six keys at address 32. Service 5 sends 10 tokens and 60 gas to service 6 and yields.
Service 6 yields. -/
def table : Nat → List Nat × Pvm.VM
  | 1 => ([16], Svc.ExM.vm 32 0 0 0 0 0)
  | 5 => ([20, 25], Svc.ExM.vm 6 10 60 0 0 0)
  | _ => ([25], Svc.ExM.vm 8 0 0 0 0 0)

/-- The chain of `Stf.Ex` with these services. -/
def N : Par Nat Nat (List Nat) where
  S := Stf.Ex.W.S
  P := { Stf.Ex.W.P with maxGas := 2000 }
  H := Stf.Ex.W.H
  C := Stf.Ex.W.C
  hash := Stf.Ex.W.hash
  ver := Stf.Ex.W.ver
  verAvail := Stf.Ex.W.verAvail
  blake := Stf.Ex.W.blake
  keccak := Stf.Ex.W.keccak
  octets := Stf.Ex.W.octets
  num := Stf.Ex.W.num
  oct := fun n => [UInt8.ofNat n]
  key := fun b => ⟨Stf.Ex.W.num b, b.length⟩
  full := Stf.Ex.W.full
  K := { total := 1000, perCore := 400, cores := 2 }
  par := { cores := 2, validators := 6, expiry := 5, authQueue := 2, keySize := 4, memo := 4 }
  mach := Svc.ExM.machine table
  fetch := fun _ _ _ _ _ _ => none
  seed := fun _ _ s => s

def realm : Realm := ⟨Delta.ExA.g, { manager := 1, assign := [1, 5], designate := 1, registrar := 5, always := [(1, 40)] }⟩

def s0 : State Nat (List Nat) where
  slot := 0
  e0 := 1
  e1 := 2
  e2 := 3
  e3 := 4
  saf := { pending := Stf.Ex.set, root := [], sealers := .keys [20, 21, 22, 23, 24, 25], acc := [] }
  staging := Stf.Ex.set
  active := Stf.Ex.set
  past := Stf.Ex.set
  judged := ⟨[], [], [], []⟩
  pending := [none, none]
  hist := []
  belt := []
  pools := [[30, 31], [30, 31]]
  queues := [[30, 30], [30, 30]]
  ready := List.replicate 6 []
  done := List.replicate 6 []
  outputs := []
  stats := { curr := List.replicate 6 {}, prev := List.replicate 6 {}, cores := List.replicate 2 {}, services := [] }
  world := realm

def empty (header parent slot : Nat) : Blk Nat Nat where
  header := header
  parent := parent
  parentRoot := 8
  slot := slot
  author := 1
  vrf := slot
  tickets := []
  disputes := ⟨[], [], []⟩
  assurances := []
  guarantees := []
  preimages := []

/-- The belt after the first block. -/
def belt1 : List (Option Bytes) := Merkle.mmrAppend N.keccak [] (Stf.outputRoot (world N) [])

/-- Work for services 5 and 6. -/
def r1 : Reports.Report := { Stf.Ex.r1 with
  anchorMmr := N.num (Merkle.superPeak N.keccak belt1),
  digests := [⟨5, N.num (Svc.ExM.codeHash 5), 500, 10⟩, ⟨6, N.num (Svc.ExM.codeHash 6), 100, 10⟩] }

def b1 := empty 101 100 1
/-- The report is guaranteed. -/
def b2 := { empty 102 101 2 with guarantees := [⟨r1, 1, [⟨0, 10⟩, ⟨4, 14⟩]⟩] }
/-- It is available and executed. -/
def b3 := { empty 103 102 3 with assurances := Stf.Ex.assure 102 [true, false] }
/-- Two more epochs. -/
def b4 := empty 104 103 6
def b5 := empty 105 104 12

def bs : Blocks Nat Nat := [b1, b2, b3, b4, b5].map fun b => (none, b)

def final : State Nat (List Nat) × List (List Acc.Report) := match run N bs s0 with | .ok x => x | .error _ => (s0, [])
theorem isOk : (match run N bs s0 with | .ok _ => true | .error _ => false) = true := by decide +kernel
theorem ran : run N bs s0 = .ok final := by
  have h := isOk
  unfold final
  split
  · assumption
  · rename_i e; rw [e] at h; cases h
theorem accs : final.2.map (fun l => l.map Acc.Report.pkg) = [[], [], [1], [], []] := by decide +kernel
theorem accounts : [1, 5, 6].map (fun s => (final.1.world.accounts.metas s).map fun m => (m.balance, m.lastAcc)) = [some (10000, 12), some (9990, 3), some (10010, 3)] := by decide +kernel

attribute [irreducible] final

/-! Another chain, where hashes are numbered by their last octet and service 5, the assigner of core 1, sets its queue
to what is at address 32. -/

def tableQ : Nat → List Nat × Pvm.VM
  | 5 => ([15], Svc.ExM.vm 1 32 5 0 0 0)
  | n => table n

def NQ : Par Nat Nat (List Nat) := { N with
  num := fun b => (b.getLastD 0).toNat
  mach := Svc.ExM.machine tableQ }

def rQ : Reports.Report := { r1 with
  anchorMmr := NQ.num (Merkle.superPeak N.keccak (Merkle.mmrAppend N.keccak [] (Stf.outputRoot (world NQ) []))),
  digests := [⟨5, NQ.num (Svc.ExM.codeHash 5), 500, 10⟩, ⟨6, NQ.num (Svc.ExM.codeHash 6), 100, 10⟩] }

def bsQ : Blocks Nat Nat := [b1, { b2 with guarantees := [⟨rQ, 1, [⟨0, 10⟩, ⟨4, 14⟩]⟩] }, b3, b4].map fun b => (none, b)

def finalQ : State Nat (List Nat) × List (List Acc.Report) := match run NQ bsQ s0 with | .ok x => x | .error _ => (s0, [])
theorem isOkQ : (match run NQ bsQ s0 with | .ok _ => true | .error _ => false) = true := by decide +kernel
theorem ranQ : run NQ bsQ s0 = .ok finalQ := by
  have h := isOkQ
  unfold finalQ
  split
  · assumption
  · rename_i e; rw [e] at h; cases h

attribute [irreducible] finalQ

end Fastroll.Node.Ex
