/-
Model of one entry of a node's table of peers while connections to the peer come and go into it.

* `store_peer_connection_handle` and `insert_up_stream_handle`, network/src/peers.rs 36-65: storing a connection replaces
  the whole entry, with no stream handles in it; a handle is put into the connection that is there,
* who calls them: a call that got through stores its connection and then inserts the handle of the stream it has opened
  (`connect_to_peer`, network/src/manager.rs 277-310 and 349-367); an accepted connection is stored and the handle inserted when the
  stream has arrived (`accept_connection`, `handle_all_streams`, `run_up_stream_handler`, manager.rs 73-192),
* `announce_block_to_all_peers`, manager.rs 388-407, for this peer: without a handle the peer is passed over.

A connection and its announcement stream have one number.  Several connections to one peer arise when both nodes call each other.

Simplifications.
* The channels have room and streams do not break (C78).
* An announcement is one step for one peer.
-/
namespace Fastroll.Dial

/-- What happens to the entry: a connection is stored, the handle of its stream is inserted, a block is announced. -/
inductive SlotOp
  | store (i : Nat) | insert (i : Nat) | announce (h : Nat)
  deriving DecidableEq, Repr

/-- The entry, and what has been put into which stream. -/
structure Slot where
  conn : Option Nat
  handle : Option Nat
  log : List (Nat × Nat)
  deriving DecidableEq, Repr

/-- One operation. -/
def slotStep (s : Slot) : SlotOp → Slot
  | .store i => { s with conn := some i, handle := none }
  | .insert i => if s.conn.isSome then { s with handle := some i } else s
  | .announce h =>
    match s.conn, s.handle with
    | some _, some i => { s with log := s.log ++ [(i, h)] }
    | _, _ => s

/-- An entry without connection. -/
def emptySlot : Slot := ⟨none, none, []⟩

/-- A history of the entry. -/
def slotRun (ops : List SlotOp) : Slot := ops.foldl slotStep emptySlot

end Fastroll.Dial
