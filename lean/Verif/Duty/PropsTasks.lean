import Verif.Duty.Props

/-!
# C68: the tasks of one slot on several nodes

What the tasks of the nodes do in one slot when their states agree: if one authors, the others with another key do
nothing and keep their state; in an epoch sealed by tickets every task panics and every node stays where it is.
-/
namespace Fastroll.Duty
open Fastroll.Wire Fastroll.Duty.Paper Fastroll.Chain Fastroll.Chain.Paper
open Fastroll.Safrole (Par Heap Crypto VKey sealerAt epochOf phaseOf WF)

/-- The node of the key `8`, started on the same state as the node of the key `9`. -/
def exOther : Local := start exState (ex32 8) fun k => if k = ex32 8 then some (ex32 8) else none
/-- A node whose state has tickets for sealers. -/
def exThere : Node Unit (Safrole.State Bytes Unit Bytes) Unit := { exHere with db := fun _ => some exTick }

variable {K V ρ ρ' : Type} [DecidableEq K]

/-- **C68**: no slot has two blocks.  If the task of one node authors a block, the task of every node with another key and
the same Safrole state has nothing to do, whatever its index, keys and clock, and changes nothing. -/
theorem C68_no_rival (H : Heap) (P : Par) (C : Crypto Bytes ρ' Bytes) (W : World K V ρ) (rd : St K V → Safrole.State Bytes ρ' Bytes)
    (me other : Local) (slot : Nat) (clock clock' : Option Nat) (n n' m : Node K V ρ) (b : Block) (root : Bytes)
    (e : extend H P C W rd me slot clock n = (n', .authored b root)) (hk : other.key ≠ me.key) (hs : rd m.db = rd n.db) :
    extend H P C W rd other slot clock' m = (m, .idle) := by
  have hr := (extend_authored e).1
  have ho : role H P C (rd m.db) other.key slot = .importer := by
    rw [hs]
    rcases C68_one_author H P C (rd n.db) slot with h | h | ⟨k, h⟩
    · rw [h] at hr; cases hr
    · rw [h] at hr; cases hr
    · rw [h] at hr ⊢
      split at hr
      · rename_i c
        rw [if_neg (fun d => hk (d.trans c.symm))]
      · cases hr
  unfold extend
  rw [ho]

example : extend Safrole.exHeap exPar exCrypto exWorld exGet exOther 6 (some 6) exHere = (exHere, .idle) :=
  C68_no_rival _ _ _ _ _ exMe exOther 6 (some 6) (some 6) exHere _ exHere _ _ (exTask_ok 6 6 (by decide +kernel)) (by decide) rfl

/-- **C68** fails when the sealers are tickets: in every slot of the epoch the task of every node panics, and no node
gets any further. -/
theorem C68_ticket_tasks (H : Heap) (P : Par) (C : Crypto Bytes ρ' Bytes) (W : World K V ρ) (rd : St K V → Safrole.State Bytes ρ' Bytes)
    (hE : 0 < P.epoch) (n : Node K V ρ) (l : List Safrole.Ticket) (hl : (rd n.db).saf.sealers = .tickets l) (hn : l.length = P.epoch)
    (slot : Nat) (hs : epochOf P slot = epochOf P (rd n.db).slot) (me : Local) (clock : Option Nat) :
    extend H P C W rd me slot clock n = (n, .panicked) := by
  unfold extend
  rw [C68_ticket_mode H P C hE (rd n.db) l hl hn slot hs]

example : extend Safrole.exHeap exPar exCrypto exWorld exGet exMe 6 (some 6) exThere = (exThere, .panicked) :=
  C68_ticket_tasks _ _ _ _ _ (by decide) exThere [⟨1, 0⟩, ⟨4, 0⟩, ⟨2, 1⟩, ⟨3, 1⟩] rfl rfl 6 (by decide) _ _

/-- **C68**: a node that holds the key of its slot and cannot sign, has no index or no clock fails and keeps its state: a
slot is lost, the chain is not. -/
theorem C68_unready (H : Heap) (P : Par) (C : Crypto Bytes ρ' Bytes) (W : World K V ρ) (rd : St K V → Safrole.State Bytes ρ' Bytes)
    (me : Local) (slot : Nat) (clock : Option Nat) (n : Node K V ρ) (hr : role H P C (rd n.db) me.key slot = .author)
    (h : me.index = none ∨ me.keystore me.key = none ∨ clock = none) :
    extend H P C W rd me slot clock n = (n, .failed) := by
  unfold extend
  rw [hr]
  rcases h with h | h | h
  · rw [h]
  · rw [h]; cases me.index <;> rfl
  · rw [h]; cases me.index <;> cases me.keystore me.key <;> rfl

example : extend Safrole.exHeap exPar exCrypto exWorld exGet { exMe with index := none } 6 (some 6) exHere = (exHere, .failed) :=
  C68_unready _ _ _ _ _ _ 6 _ _ (by decide +kernel) (.inl rfl)

end Fastroll.Duty
