import Verif.Safrole.Model

/-!
# Specification of Safrole

Nothing here refers to heaps, loops or the order of steps inside a block.
-/
namespace Fastroll.Safrole

/-- `kept` are the `E` lowest of the tickets offered (all, if there are fewer). -/
def Lowest (E : Nat) (offered kept : List Ticket) : Prop :=
  ∃ dropped, (kept ++ dropped).Perm offered ∧ kept.length = min E offered.length ∧
    ∀ x ∈ kept, ∀ y ∈ dropped, x.id ≤ y.id

/-- No two tickets have the same identifier. -/
def Distinct (l : List Ticket) : Prop := l.Pairwise fun a b => a.id ≠ b.id

/-- The tickets of an extrinsic. -/
def ticketsOf (xt : List Entry) : List Ticket := xt.filterMap fun e => e.output.map fun id => { id, attempt := e.attempt }

/-- First, last, second, last but one, … -/
def OutsideIn (v r : List Ticket) : Prop :=
  r.length = v.length ∧ ∀ i : Nat, (2 * i < v.length → r[2 * i]? = v[i]?) ∧ (2 * i + 1 < v.length → r[2 * i + 1]? = v[v.length - 1 - i]?)

/-- The epoch of a slot and the place of the slot in it. -/
def epochOf (P : Par) (slot : Nat) : Nat := slot / P.epoch
def phaseOf (P : Par) (slot : Nat) : Nat := slot % P.epoch

variable {κ ρ η : Type} [DecidableEq κ]

/-- The states the blocks are applied to, first to last. -/
def befores (H : Heap) (P : Par) (C : Crypto κ ρ η) : List (Blk κ η) → State κ ρ η → List (State κ ρ η × Blk κ η)
  | [], _ => []
  | b :: bs, s => (s, b) :: match block H P C s b with | none => [] | some s => befores H P C bs s

/-- The first blocks of new epochs among them, latest first. -/
def firsts (P : Par) (l : List (State κ ρ η × Blk κ η)) : List (State κ ρ η × Blk κ η) :=
  (l.filter fun e => epochOf P e.1.slot ≠ epochOf P e.2.slot).reverse

/-- Winning-tickets markers put into the headers of a chain of blocks. -/
def announced (H : Heap) (P : Par) (C : Crypto κ ρ η) : List (Blk κ η) → State κ ρ η → List (List Ticket)
  | [], _ => []
  | b :: bs, s =>
    match block H P C s b with
    | none => []
    | some s' => ((winnersMark H P s s').join).toList ++ announced H P C bs s'

/-- Tickets brought in by a chain of blocks. -/
def offers (bs : List (Blk κ η)) : List Ticket := bs.flatMap fun b => ((newTickets b.tickets).toOption).getD []

/-- How many slots have a sealer. -/
def Sealers.length : Sealers κ → Nat
  | .tickets l => l.length
  | .keys l => l.length

/-! ## Well-formed states -/

/-- Sets of the fixed size, an accumulator within its limit. -/
def WF (P : Par) (s : State κ ρ η) : Prop :=
  s.saf.pending.length = P.validators ∧ s.active.length = P.validators ∧ s.past.length = P.validators ∧ s.staging.length = P.validators ∧
  s.saf.acc.length ≤ P.epoch ∧ s.saf.sealers.length = P.epoch

def WFBlk (P : Par) (b : Blk κ η) : Prop := ∀ v, b.staged = some v → v.length = P.validators

end Fastroll.Safrole
