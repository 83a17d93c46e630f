import Verif.Net.GossipModel
/-
Model of how the nodes of a network connect to each other when they start.

* `run_initiator`, node/src/jam_node/mod.rs 95-115: one round of attempts as preferred initiator, a pause, one round with all
  peers that are not connected; an error of the first round ends it (`?`), and
  `run_node` (node/src/jam_node/runner.rs 25-36) only logs it,
* `connect_to_peers`, `connect_to_all_peers`, `connect_to_peers_internal`, network/src/manager.rs 204-273: the attempts of a
  round run in tasks of their own; the round fails when one of them does (`handle.await??`), the tasks not yet waited for
  go on,
* `connect_to_peer` and `accept_connection`, manager.rs 73-114 and 277-370: each side records the connection in its table,
* `run_acceptor`, jam_node/mod.rs 53-93, which is started before the initiator.

Each attempt, each acceptance and each move from one round to the next is one step, in any order across nodes.

Simplifications.
* The network is reliable: an attempt succeeds if the other node listens, and otherwise may run into the time limit at any
  moment, or go on until the other node is there.  Connections do not break.
* All nodes know each other by the same table; the nodes are the numbers below `n`.  A round reads the table in one step.
* A round that has failed may end at any moment, not only when the attempts before the failed one have ended.
* Who is preferred in a pair is a parameter; `keyWorld` has the rule of the code.
-/
namespace Fastroll.Dial

/-- Where a node is: not running; listening; in the first round, with the attempts that go on and whether one has failed;
in the pause; in the second round; through; given up after an error, with the attempts that still go on. -/
inductive Phase
  | off | up
  | first (pending : List Nat) (failed : Bool)
  | pause
  | second (pending : List Nat) (failed : Bool)
  | ready
  | stopped (pending : List Nat)
  deriving DecidableEq, Repr

/-- The network: the phase of each node; `conn a b` says that `a` has a connection in its entry for `b`; `inb b a` that a connection
from `a` waits at `b` to be accepted. -/
structure Net where
  phase : Nat → Phase
  conn : Nat → Nat → Bool
  inb : Nat → Nat → Bool

/-- Number of nodes, and `pref a b`: `a` is the preferred initiator of the pair. -/
structure World where
  n : Nat
  pref : Nat → Nat → Bool

/-- The nodes with the given keys: `preferred_initiator`, network/src/utils.rs 7-17, as `connect_to_peers` uses it. -/
def keyWorld (keys : List (List UInt8)) : World :=
  ⟨keys.length, fun a b => Net.connectsFirst (keys.getD a []) false ⟨keys.getD b [], ([], 0)⟩⟩

/-- Steps. -/
inductive Ev
  | start (a : Nat) | begin (a : Nat) | reach (a b : Nat) | timeout (a b : Nat) | fin (a : Nat) | again (a : Nat)
  | accept (b a : Nat)
  deriving DecidableEq, Repr

/-- Does a node listen? -/
def Phase.listens : Phase → Bool
  | .off => false
  | _ => true

/-- The attempts of a node that go on. -/
def Phase.pending : Phase → List Nat
  | .first p _ => p
  | .second p _ => p
  | .stopped p => p
  | _ => []

/-- An attempt has ended. -/
def Phase.drop (b : Nat) (bad : Bool) : Phase → Phase
  | .first p f => .first (p.erase b) (f || bad)
  | .second p f => .second (p.erase b) (f || bad)
  | .stopped p => .stopped (p.erase b)
  | x => x

def setPhase (s : Net) (a : Nat) (x : Phase) : Net := { s with phase := fun c => if c = a then x else s.phase c }

/-- A table of pairs with one entry changed. -/
def setPair (f : Nat → Nat → Bool) (a b : Nat) (v : Bool) : Nat → Nat → Bool :=
  fun x y => if x = a ∧ y = b then v else f x y

/-- The peers that a round is for: manager.rs 211-216, 228-230 and 246-248. -/
def targets (W : World) (s : Net) (a : Nat) (P : Nat → Bool) : List Nat :=
  (List.range W.n).filter fun b => decide (b ≠ a) && !s.conn a b && P b

/-- One step. -/
def step (W : World) (s : Net) : Ev → Net
  | .start a => if a < W.n ∧ s.phase a = .off then setPhase s a .up else s
  | .begin a => if s.phase a = .up then setPhase s a (.first (targets W s a (W.pref a)) false) else s
  | .reach a b =>
    if b ∈ (s.phase a).pending ∧ (s.phase b).listens = true then
      { setPhase s a ((s.phase a).drop b false) with conn := setPair s.conn a b true, inb := setPair s.inb b a true }
    else s
  | .timeout a b =>
    if b ∈ (s.phase a).pending ∧ (s.phase b).listens = false then setPhase s a ((s.phase a).drop b true) else s
  | .fin a =>
    match s.phase a with
    | .first p f => if f then setPhase s a (.stopped p) else if p = [] then setPhase s a .pause else s
    | .second p f => if f then setPhase s a (.stopped p) else if p = [] then setPhase s a .ready else s
    | _ => s
  | .again a => if s.phase a = .pause then setPhase s a (.second (targets W s a fun _ => true) false) else s
  | .accept b a =>
    if s.inb b a = true then { s with conn := setPair s.conn b a true, inb := setPair s.inb b a false } else s

/-- A history. -/
def run (W : World) (s : Net) (evs : List Ev) : Net := evs.foldl (step W) s

/-- No node is running. -/
def dark : Net := ⟨fun _ => .off, fun _ _ => false, fun _ _ => false⟩

/-- What can happen to the attempts of a node, one peer after the other. -/
def round (W : World) (a : Nat) : List Ev := (List.range W.n).flatMap fun b => [.reach a b, .timeout a b, .accept b a]

/-- A whole start of a node before the next one starts. -/
def boot (W : World) (a : Nat) : List Ev := [.start a, .begin a] ++ round W a ++ [.fin a, .again a] ++ round W a ++ [.fin a]

end Fastroll.Dial
