import Verif.Announce.Model
/-
Vocabulary for the properties of announcements, apart from the model's steps.
-/
namespace Fastroll.Announce

/-- A task that is past peer `p` with a block of hash `h`. -/
def Task.past (p h : Nat) (t : Task) : Bool := decide (p < t.pos) && decide (t.hdr.hash = h)

/-- How often the hash `h` is owed to peer `p`: blocks finished, and announcements, still going or failed, that are
past `p`. -/
def owed {σ : Type} (s : Node σ) (p h : Nat) : Nat :=
  s.done.countP (fun b => decide (b.hash = h)) + s.tasks.countP (Task.past p h) + s.failed.countP (Task.past p h)

/-- The stream of a peer is broken, and its handle is still in the table. -/
def Link.Dead (l : Link) : Prop := ∃ q, l = .up false q

/-- The hashes that the node gives to blocks of its own in a history. -/
def ownHashes : List Ev → List Nat
  | [] => []
  | .slot h _ :: evs => h :: ownHashes evs
  | _ :: evs => ownHashes evs

/-- A channel that has room, if there is one. -/
def Link.Room (cap : Nat) (l : Link) : Prop := l = .absent ∨ l = .bare ∨ ∃ q, l = .up true q ∧ q.length < cap

/-- What an announcement does to the entry of a peer. -/
def Link.told (h : Nat) : Link → Link
  | .up true q => .up true (q ++ [h])
  | l => l

end Fastroll.Announce
