/-
Model of a node that authors blocks, announces them to its peers and imports the blocks of others.

* `announce_block_to_all_peers`, network/src/manager.rs 386-407, `UpStreamHandle` and
  `handle_outgoing_stream`, network/src/streams/up_streams.rs 19-37 and 121-135,
* `store_peer_connection_handle` and `insert_up_stream_handle`, network/src/peers.rs 36-65,
* `extend_chain`, node/src/scheduler/chain_extension.rs 32-95, started for each slot in a task of its own
  (timeslot_scheduler.rs 36-41, where its error is logged and nothing else is done),
* the checks of slot, parent and prior state root and the roll-back of `run_block_importer`, node/src/roles/importer.rs
  117-200, 275-285 and 353-415.

Each send to a channel, each write to a stream, each change of the table of peers and each import is one
step; steps of different tasks come in any order.

Simplifications.
* Headers are a hash, a parent hash, a slot and a prior state root.  The state transition is a parameter, in two halves
  for the author (before and after the announcement) and as a whole for the importer.
* The peers are numbered in the order in which the table is iterated; no peer is added after start-up.
* The author's own checks before the announcement succeed.
* What is left in the channel of a stream that is replaced still goes out (the task drains the channel before it ends);
  it is counted as written when the stream is replaced.
* A shard of the `DashMap` of peers is locked for reading while `announce_block_to_all_peers` waits at one of its entries;
  `get_mut` on an entry of that shard does not return meanwhile.
-/
namespace Fastroll.Announce

/-- What matters of `BlockHeader`. -/
structure Hdr where
  hash : Nat
  parent : Nat
  slot : Nat
  root : Nat
  deriving DecidableEq, Repr

/-- The entry of a peer, network/src/peers.rs 82-87 and 111-117: no connection, a connection without announcement stream, or
one with it: whether the task that writes is still there, and what waits in its channel. -/
inductive Link
  | absent | bare | up (alive : Bool) (queue : List Nat)
  deriving DecidableEq, Repr

/-- A task of `extend_chain` in its announcement: `pos` is the next peer. -/
structure Task where
  hdr : Hdr
  pos : Nat
  deriving DecidableEq, Repr

/-- A node. `sent p` is what was written to streams of `p`; `visible` is the state as the cache shows it, `committed` the one in
the databases; `roots` is `PostStateRootDB`. -/
structure Node (σ : Type) where
  links : Nat → Link
  sent : Nat → List Nat
  best : Hdr
  headers : List Hdr
  roots : Nat → Option Nat
  committed : σ
  visible : σ
  tasks : List Task
  done : List Hdr
  failed : List Task

/-- The number of peers, `UP_0_MPSC_BUFFER_SIZE` (manager.rs 24), the shard of a peer, the state root, and the
state transitions. -/
structure World (σ : Type) where
  peers : Nat
  cap : Nat
  shard : Nat → Nat
  root : σ → Nat
  phase1 : Hdr → σ → σ
  phase2 : Hdr → σ → σ
  stf : Hdr → σ → Option σ

/-- What happens next: a slot of which this node is the author; a step of a task; a write to the stream of a peer; the
stream of a peer breaks; a new connection of a peer; its announcement stream; a block for the importer. -/
inductive Ev
  | slot (hash slot : Nat) | go (i : Nat) | write (p : Nat) | lose (p : Nat) | store (p : Nat) | attach (p : Nat)
  | arrive (b : Hdr)
  deriving DecidableEq, Repr

/-- A map with one value changed. -/
def put {α : Type} (f : Nat → α) (p : Nat) (a : α) : Nat → α := fun q => if q = p then a else f q

section
variable {σ : Type}

/-- Whether `mpsc_sender.send` would wait at a peer. -/
def full (W : World σ) (l : Link) : Bool :=
  match l with
  | .up true q => W.cap ≤ q.length
  | _ => false

/-- Whether the shard of a peer is locked by an announcement that waits. -/
def held (W : World σ) (s : Node σ) (p : Nat) : Bool :=
  s.tasks.any fun t => decide (t.pos < W.peers) && (W.shard t.pos == W.shard p) && full W (s.links t.pos)

/-- `extend_chain` up to the announcement: chain_extension.rs 46-59, author.rs 119-146 and
243-260. -/
def author (W : World σ) (s : Node σ) (hash slot : Nat) : Node σ :=
  let h : Hdr := ⟨hash, s.best.hash, slot, W.root s.committed⟩
  { s with best := h, headers := s.headers ++ [h], visible := W.phase1 h s.visible, tasks := s.tasks ++ [⟨h, 0⟩] }

/-- `extend_chain` after the announcement: chain_extension.rs 76-88, author.rs 149-186. -/
def finish (W : World σ) (s : Node σ) (i : Nat) (t : Task) : Node σ :=
  { s with
    visible := W.phase2 t.hdr s.visible
    committed := W.phase2 t.hdr s.visible
    roots := put s.roots t.hdr.hash (some (W.root (W.phase2 t.hdr s.visible)))
    tasks := s.tasks.eraseIdx i
    done := s.done ++ [t.hdr] }

/-- The announcement of a task goes on to the next peer. -/
def next (s : Node σ) (i : Nat) (t : Task) : Node σ := { s with tasks := s.tasks.set i { t with pos := t.pos + 1 } }

/-- The announcement is put into the channel of the peer. -/
def push (s : Node σ) (t : Task) (q : List Nat) : Node σ := { s with links := put s.links t.pos (.up true (q ++ [t.hdr.hash])) }

/-- `send` fails: the error goes through `?` out of `announce_block_to_all_peers` and `extend_chain`, manager.rs 401,
chain_extension.rs 74. -/
def fail (s : Node σ) (i : Nat) (t : Task) : Node σ := { s with tasks := s.tasks.eraseIdx i, failed := s.failed ++ [t] }

/-- One step of a task: manager.rs 391-405 for one peer, or what comes after the last. -/
def go (W : World σ) (s : Node σ) (i : Nat) (t : Task) : Node σ :=
  if t.pos < W.peers then
    match s.links t.pos with
    | .absent => next s i t
    | .bare => next s i t
    | .up true q => if W.cap ≤ q.length then s else next (push s t q) i t
    | .up false _ => fail s i t
  else finish W s i t

/-- The stream of a peer is given up; what waits in its channel is still written. -/
def retire (s : Node σ) (p : Nat) : Node σ :=
  match s.links p with
  | .up true q => { s with sent := put s.sent p (s.sent p ++ q) }
  | _ => s

/-- `validate_block_header_prior_stf`, importer.rs 275-285, 353-415: slot, parent and prior state root. -/
def headerOk (s : Node σ) (b : Hdr) : Bool :=
  decide (s.best.slot < b.slot) && decide (b.parent = s.best.hash) && decide (s.roots b.parent = some b.root)

/-- The importer: importer.rs 117-200. -/
def receive (W : World σ) (s : Node σ) (b : Hdr) : Node σ :=
  if headerOk s b then
    match W.stf b s.visible with
    | some v =>
      { s with best := b, headers := s.headers ++ [b], roots := put s.roots b.hash (some (W.root v)), committed := v, visible := v }
    | none => { s with visible := s.committed }
  else { s with visible := s.committed }

/-- One step. -/
def step (W : World σ) (s : Node σ) : Ev → Node σ
  | .slot h n => author W s h n
  | .go i =>
    match s.tasks[i]? with
    | none => s
    | some t => go W s i t
  | .write p =>
    match s.links p with
    | .up true (h :: q) => { s with links := put s.links p (.up true q), sent := put s.sent p (s.sent p ++ [h]) }
    | _ => s
  | .lose p =>
    match s.links p with
    | .up true _ => { s with links := put s.links p (.up false []) }
    | _ => s
  | .store p => if held W s p then s else { retire s p with links := put s.links p .bare }
  | .attach p =>
    if held W s p then s
    else
      match s.links p with
      | .absent => s
      | _ => { retire s p with links := put s.links p (.up true []) }
  | .arrive b => receive W s b

/-- A history. -/
def run (W : World σ) (s : Node σ) (evs : List Ev) : Node σ := evs.foldl (step W) s

end
end Fastroll.Announce
