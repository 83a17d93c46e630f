/-!
# Model of Safrole: tickets, slot sealers, entropy and validator-set rotation

Transcribes
* `/repo/state/src/types/safrole.rs` lines 208-267 (sealers) and 269-391 (ticket accumulator),
* `/repo/extrinsics/src/validation/tickets.rs` lines 14-175,
* `/repo/transition/src/state/safrole.rs` lines 22-226, `entropy.rs`, `validators.rs`, `timeslot.rs`,
* `/repo/state/src/types/validators.rs` lines 37-47,
* the order of these steps in `/repo/node/src/roles/executor.rs` lines 72-183, 210-216.

Simplifications.
* A ticket identifier is the number its 32 octets spell: octet strings of one length compare like those.
* `BinaryHeap` of the standard library is any structure `Heap` with its contract.
* A ring signature is its output (`none` if it is malformed) and whether it verifies.
* The chain constants are a record `Par`; hashes are functions.
* The state manager is replaced by the value of the components before (`_clean`) and after.
-/
namespace Fastroll.Safrole

/-- `EPOCH_LENGTH`, `TICKET_CONTEST_DURATION`, `MAX_TICKETS_PER_EXTRINSIC`, `TICKETS_PER_VALIDATOR`,
`VALIDATOR_COUNT`, common/src/constants. -/
structure Par where
  epoch : Nat
  contest : Nat
  perXt : Nat
  perVal : Nat
  validators : Nat

/-- `Ticket`, common/src/types/ticket.rs lines 8-14; equality on both fields, order by `id` only. -/
structure Ticket where
  id : Nat
  attempt : Nat
deriving DecidableEq, Repr

/-- `BinaryHeap<Ticket>`: `peek` (and what `pop` removes) is a greatest element, `into_sorted_vec`
lists the elements in ascending order. Which of several equal elements comes first is left open. -/
structure Heap where
  peek : List Ticket → Option Ticket
  sorted : List Ticket → List Ticket
  peek_nil : peek [] = none
  peek_some : ∀ l, l ≠ [] → ∃ t, peek l = some t
  peek_mem : ∀ l t, peek l = some t → t ∈ l
  peek_max : ∀ l t, peek l = some t → ∀ u ∈ l, u.id ≤ t.id
  sorted_perm : ∀ l, (sorted l).Perm l
  sorted_le : ∀ l, (sorted l).Pairwise fun a b => a.id ≤ b.id

/-! ## The ticket accumulator -/

/-- `TicketAccumulator::add`, safrole.rs lines 332-344. -/
def add (H : Heap) (E : Nat) (heap : List Ticket) (t : Ticket) : List Ticket :=
  if heap.length < E then t :: heap
  else
    match H.peek heap with
    | none => heap
    | some mx => if t.id < mx.id then t :: heap.erase mx else heap

/-- `add_multiple`, lines 345-349. -/
def addMany (H : Heap) (E : Nat) (heap : List Ticket) (ts : List Ticket) : List Ticket := ts.foldl (add H E) heap

/-- `contains`, lines 351-353: compares whole tickets. -/
def contains (heap : List Ticket) (t : Ticket) : Bool := heap.any fun u => u == t

/-! ## The tickets extrinsic -/

/-- `TicketsXtEntry`, as far as validation sees it. -/
structure Entry where
  output : Option Nat
  attempt : Nat
  verifies : Bool

inductive XtErr
  | closed | tooMany | badProof | notSorted | duplicate | useless | badAttempt
deriving DecidableEq, Repr

/-- `ticket_xt_to_new_tickets`, tickets.rs lines 14-29. -/
def newTickets : List Entry → Except XtErr (List Ticket)
  | [] => .ok []
  | e :: es =>
    match e.output with
    | none => .error .badProof
    | some id =>
      match newTickets es with
      | .error x => .error x
      | .ok ts => .ok ({ id, attempt := e.attempt } :: ts)

/-- `windows(2).any(|p| p[0].id > p[1].id)` fails, line 83. -/
def inOrder : List Ticket → Bool
  | a :: b :: l => decide (a.id ≤ b.id) && inOrder (b :: l)
  | _ => true

/-- The duplicate check of lines 91-97. -/
def noDupIds : List Ticket → List Nat → Bool
  | [], _ => true
  | t :: l, seen => !seen.contains t.id && noDupIds l (t.id :: seen)

/-- `check_useless_tickets`, lines 114-141. -/
def useless (H : Heap) (E : Nat) (acc new : List Ticket) : Bool :=
  if acc.length + new.length > E then
    let s := H.sorted acc
    let overflow := s.length + new.length - E
    if overflow ≤ s.length then
      match s[s.length - overflow]?, new.getLast? with
      | some th, some l => decide (th.id ≤ l.id)
      | _, _ => false
    else false
  else false

/-- `validate_entry`, lines 165-190, over the whole extrinsic. -/
def checkEntries (P : Par) : List Entry → Except XtErr Unit
  | [] => .ok ()
  | e :: es =>
    if e.attempt > P.perVal - 1 then .error .badAttempt
    else if !e.verifies then .error .badProof
    else checkEntries P es

/-- `TicketsXtValidator::validate`, lines 59-162. -/
def validate (H : Heap) (P : Par) (phase : Nat) (acc : List Ticket) (xt : List Entry) : Except XtErr (List Ticket) :=
  if xt.isEmpty then .ok []
  else if phase ≥ P.contest then .error .closed
  else if xt.length > P.perXt then .error .tooMany
  else
    match newTickets xt with
    | .error x => .error x
    | .ok new =>
      if !inOrder new then .error .notSorted
      else if !noDupIds new [] then .error .duplicate
      else if new.any (contains acc) then .error .duplicate
      else if useless H P.epoch acc new then .error .useless
      else
        match checkEntries P xt with
        | .error x => .error x
        | .ok () => .ok new

/-! ## Slot sealers -/

/-- The loop of `outside_in_vec`, safrole.rs lines 213-226; `fuel` bounds the iterations. -/
def outsideLoop (v : List Ticket) : Nat → Nat → Nat → List Ticket
  | 0, _, _ => []
  | fuel + 1, left, right =>
    if left ≤ right then
      v[left]?.toList ++ (if left ≠ right then v[right]?.toList else []) ++ outsideLoop v fuel (left + 1) (right - 1)
    else []

/-- `outside_in_vec`, lines 208-227. `none`: `len - 1` underflows. -/
def outsideIn (v : List Ticket) : Option (List Ticket) :=
  if v.length = 0 then none else some (outsideLoop v v.length 0 (v.length - 1))

/-- `SlotSealers`, lines 120-125. -/
inductive Sealers (κ : Type)
  | tickets (l : List Ticket)
  | keys (l : List κ)

/-- `SlotSealer`. -/
inductive Sealer (κ : Type)
  | ticket (t : Ticket)
  | key (k : κ)

/-- `get_slot_sealer`, lines 237-245; `none`: index out of bounds. -/
def sealerAt {κ : Type} (P : Par) (s : Sealers κ) (slot : Nat) : Option (Sealer κ) :=
  match s with
  | .tickets l => l[slot % P.epoch]?.map .ticket
  | .keys l => l[slot % P.epoch]?.map .key

/-- `ValidatorKey`: the two keys used here. -/
structure VKey (κ : Type) where
  bander : κ
  ed : κ
deriving DecidableEq

/-- `generate_fallback_keys`, lines 248-267. `word i` is the number in the first four octets of the
hash of the entropy and `i`; `none` is `ValidatorIndexOutOfBounds`. -/
def fallbackKeys {κ : Type} (P : Par) (word : Nat → Nat) (set : List (VKey κ)) : Option (List κ) :=
  (List.range P.epoch).mapM fun i => (set[word i % P.validators]?).map VKey.bander

/-! ## The state of the header -/

/-- `SafroleState`. -/
structure Saf (κ ρ : Type) where
  pending : List (VKey κ)
  root : ρ
  sealers : Sealers κ
  acc : List Ticket

structure State (κ ρ η : Type) where
  slot : Nat
  e0 : η
  e1 : η
  e2 : η
  e3 : η
  saf : Saf κ ρ
  staging : List (VKey κ)
  active : List (VKey κ)
  past : List (VKey κ)

/-- What the state transition takes from cryptography: the entropy hash, the hash of the fallback
sequence, the ring root of a validator set, the all-zero key. -/
structure Crypto (κ ρ η : Type) where
  mix : η → η → η
  word : η → Nat → Nat
  ringRoot : List (VKey κ) → ρ
  zero : VKey κ

/-- A block: slot, tickets, the punish set after its disputes, the header's VRF output and the staging
set its accumulation leaves (`none`: unchanged). -/
structure Blk (κ η : Type) where
  slot : Nat
  tickets : List Entry
  punished : List κ
  vrf : η
  staged : Option (List (VKey κ))

/-- `nullify_punished_validators`, validators.rs lines 37-46. -/
def nullify {κ : Type} [DecidableEq κ] (zero : VKey κ) (punished : List κ) (set : List (VKey κ)) : List (VKey κ) :=
  set.map fun v => if punished.contains v.ed then zero else v

variable {κ ρ η : Type} [DecidableEq κ]

/-- `compute_next_slot_sealers`, transition/src/state/safrole.rs lines 103-137. `none`: an error. -/
def nextSealers (H : Heap) (P : Par) (C : Crypto κ ρ η) (prior : Saf κ ρ) (was now : Nat) (active : List (VKey κ)) (e2 : η) :
    Option (Sealers κ) :=
  if now / P.epoch > was / P.epoch + 1 ∨ was % P.epoch < P.contest ∨ prior.acc.length ≠ P.epoch then
    (fallbackKeys P (C.word e2) active).map .keys
  else
    match outsideIn (H.sorted prior.acc) with
    | none => none
    | some l => if l.length = P.epoch then some (.tickets l) else none

/-- The header part of a block, executor.rs lines 84-172: timeslot, entropy, past and active set, then
Safrole, whose new-epoch part (lines 57-101) sees the new entropy and active set and the old pending
and staging set. -/
def header (H : Heap) (P : Par) (C : Crypto κ ρ η) (s : State κ ρ η) (b : Blk κ η) : Option (State κ ρ η) :=
  if b.slot ≤ s.slot then none
  else
    let fresh := s.slot / P.epoch < b.slot / P.epoch
    let s1 : State κ ρ η :=
      if fresh then { s with slot := b.slot, e3 := s.e2, e2 := s.e1, e1 := s.e0, past := s.active, active := s.saf.pending }
      else { s with slot := b.slot }
    let saf : Option (Saf κ ρ) :=
      if fresh then
        let pending := nullify C.zero b.punished s.staging
        match nextSealers H P C s.saf s.slot b.slot s1.active s1.e2 with
        | none => none
        | some sl => some { pending := pending, root := C.ringRoot pending, sealers := sl, acc := [] }
      else some s.saf
    match saf with
    | none => none
    | some saf =>
      match validate H P (b.slot % P.epoch) saf.acc b.tickets with
      | .error _ => none
      | .ok new => some { s1 with saf := { saf with acc := addMany H P.epoch saf.acc new } }

/-- The rest of a block, as far as this state goes: the entropy of the header (entropy.rs lines 41-58)
and a new staging set. -/
def finish (C : Crypto κ ρ η) (s : State κ ρ η) (b : Blk κ η) : State κ ρ η :=
  { s with e0 := C.mix s.e0 b.vrf, staging := b.staged.getD s.staging }

def block (H : Heap) (P : Par) (C : Crypto κ ρ η) (s : State κ ρ η) (b : Blk κ η) : Option (State κ ρ η) :=
  (header H P C s b).map fun s1 => finish C s1 b

/-- Blocks one after the other. -/
def chain (H : Heap) (P : Par) (C : Crypto κ ρ η) : List (Blk κ η) → State κ ρ η → Option (State κ ρ η)
  | [], s => some s
  | b :: bs, s =>
    match block H P C s b with
    | none => none
    | some s => chain H P C bs s

/-- `EpochMarker`: the two entropies and the keys of the new pending set. -/
structure EpochMark (κ η : Type) where
  entropy : η
  tickets : η
  validators : List (VKey κ)

/-- `mark_safrole_header_markers`, transition/src/state/safrole.rs lines 187-226, for the block `b` on
`s` whose header gives `s'`. The outer `none` is an error. -/
def epochMark (P : Par) (s s' : State κ ρ η) : Option (EpochMark κ η) :=
  if s.slot / P.epoch < s'.slot / P.epoch then some { entropy := s.e0, tickets := s.e1, validators := s'.saf.pending }
  else none

def winnersMark (H : Heap) (P : Par) (s s' : State κ ρ η) : Option (Option (List Ticket)) :=
  if ¬ s.slot / P.epoch < s'.slot / P.epoch ∧ s.slot % P.epoch < P.contest ∧ P.contest ≤ s'.slot % P.epoch ∧ s.saf.acc.length = P.epoch then
    match outsideIn (H.sorted s.saf.acc) with
    | none => none
    | some l => if l.length = P.epoch then some (some l) else none
  else some none

end Fastroll.Safrole
