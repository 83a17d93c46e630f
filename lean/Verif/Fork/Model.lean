import Verif.Chain.Model

/-!
# Model of the fuzzing target

Transcribes `/repo/fuzz/src/fuzz_target.rs` lines 79-329 (state keys, staged blocks, the state for a hash), 331-410
(commit modes, staging, finalisation) and 564-728 (`process_message`).

Simplifications.
* The importer, the node and its parameters are those of the model of C62; the build for fuzzing does not read the
  clock.
* `BTreeSet` and `HashMap` are lists: sets of keys without repetition, in no particular order, and maps with the
  newest entry first.  The order of the entries in a `State` message is not modelled.
* A staged artifact is its list of writes (`state_delta_entries` gives the newest write of every key).
* Sending and receiving on the socket do not fail.  The temporary directories are not modelled: a new storage is the
  empty one.
-/
namespace Fastroll.Fork
open Fastroll.Wire Fastroll.Chain

/-- `StagedBlock` with its `RingCacheStateSnapshot`: 104-120. -/
structure Staged (K V ρ : Type) where
  header : Header
  changes : Changes K
  artifact : Option (Delta K V)
  ring : ρ

/-- `FuzzTargetRunner` with `LatestStateKeys`, `FuzzFeatures` and `SimpleForkState`: 82-89, 143-180. -/
structure Target (K V ρ : Type) where
  node : Node K V ρ
  latest : Bytes
  keys : List K
  withAnc : Bool
  forking : Bool
  lastFin : Option Bytes
  staged : List (Bytes × Staged K V ρ)
  inited : Bool

variable {K V ρ : Type} [DecidableEq K]

/-- `insert_state_key` and `remove_state_key`: 94-101. -/
def insertKey (ks : List K) (k : K) : List K := if k ∈ ks then ks else k :: ks
def removeKey (ks : List K) (k : K) : List K := ks.filter fun x => decide (x ≠ k)

/-- `apply_account_state_changes`: 234-243. -/
def applyChanges (ks : List K) (c : Changes K) : List K := c.removed.foldl removeKey (c.added.foldl insertKey ks)

/-- `apply_state_deltas_to_state_keys`: 246-263. -/
def deltaKeys (ks : List K) : Delta K V → List K
  | [] => ks
  | (k, none) :: d => removeKey (deltaKeys ks d) k
  | (k, some _) :: d => insertKey (deltaKeys ks d) k

/-- The lookup in the map of deltas. -/
def deltaGet : Delta K V → K → Option (Option V)
  | [], _ => none
  | (k, v) :: d, x => if x = k then some v else deltaGet d x

/-- One round of the loop of `collect_state_from_keys`: 273-294. -/
def collectKey (n : Node K V ρ) (d : Delta K V) (k : K) : Option (K × V) :=
  match deltaGet d k with
  | some none => none
  | some (some v) => some (k, v)
  | none =>
    match n.view k with
    | some v => some (k, v)
    | none => none

/-- `collect_state_from_keys`: 266-297.  No deltas are the empty list. -/
def collect (n : Node K V ρ) (ks : List K) (d : Delta K V) : List (K × V) := ks.filterMap (collectKey n d)

/-- `build_state_for_hash`: 300-329. -/
def buildState (t : Target K V ρ) (h : Bytes) : List (K × V) :=
  if t.latest = h then collect t.node t.keys []
  else
    match find t.staged h with
    | some s => collect t.node (deltaKeys t.keys (s.artifact.getD [])) (s.artifact.getD [])
    | none => collect t.node t.keys []

/-- `determine_block_commit_mode`: 331-344. -/
def commitMode (t : Target K V ρ) (b : Block) : Mode :=
  if !t.forking || isGenesis b then .immediate
  else if t.lastFin = some b.header.parent then .stageOnly
  else .immediate

/-- The node after `insert_header` and `apply_staged_block_commit`: 365-386 and 394-398. -/
def commitStaged (n : Node K V ρ) (hash : Bytes) (s : Staged K V ρ) : Node K V ρ :=
  ⟨over (s.artifact.getD []) n.db, n.dirty, s.ring, s.header, (s.header.slot, hash) :: n.anc, (hash, s.header) :: n.headers,
    n.roots⟩

/-- `finalize_if_parent_staged`: 389-410. -/
def finalize (t : Target K V ρ) (parent : Bytes) : Target K V ρ :=
  match find t.staged parent with
  | none => t
  | some s => ⟨commitStaged t.node parent s, parent, applyChanges t.keys s.changes, t.withAnc, t.forking, some parent, [], t.inited⟩

/-- The successful import in the two modes: 658-678, and `set_post_state_root`: 680-684. -/
def succeed (t : Target K V ρ) (mode : Mode) (before : ρ) (n : Node K V ρ) (hash : Bytes) (h : Header) (o : Out K V) :
    Target K V ρ :=
  match mode with
  | .immediate => { t with node := n.setRoot hash o.root, latest := hash, keys := applyChanges t.keys o.changes, lastFin := some hash }
  | .stageOnly => { t with node := { n with ring := before }.setRoot hash o.root, staged := (hash, ⟨h, o.changes, o.artifact, n.ring⟩) :: t.staged }

/-- The messages the target answers, and the one that starts a session. -/
inductive Msg (K V : Type) where
  | initialize (h : Header) (st : List (K × V)) (anc : Anc)
  | importBlock (b : Block)
  | getState (h : Bytes)
  | other

/-- Replies; `closed` is the end of the session by an error of the target itself. -/
inductive Reply (K V : Type) where
  | root (r : Bytes)
  | state (s : List (K × V))
  | error (e : ImpErr)
  | closed
deriving DecidableEq

/-- The handler of `ImportBlock`: 629-712. -/
def importMsg (W : World K V ρ) (t : Target K V ρ) (b : Block) : Target K V ρ × Reply K V :=
  match Header.hash W.H b.header with
  | .error _ => (t, .closed)
  | .ok hash =>
    let t := finalize t b.header.parent
    let mode := commitMode t b
    match importBlock W none t.withAnc mode t.node b with
    | (n, .ok o) => (succeed t mode t.node.ring n hash b.header o, .root o.root)
    | (n, .error e) => ({ t with node := { n with ring := t.node.ring }.rollback }, .error e)

/-- `BlockHeader::default()`, the best header of a new storage. -/
def defaultHeader : Header :=
  ⟨zeroHash, zeroHash, zeroHash, 0, none, none, 0, List.replicate 96 0, [], List.replicate 96 0⟩

/-- A new storage, with an empty ring cache `r0`. -/
def freshNode (r0 : ρ) : Node K V ρ := ⟨fun _ => none, [], r0, defaultHeader, [], [], []⟩

/-- `reset_state_context`: 209-216. -/
def reset (r0 : ρ) (t : Target K V ρ) : Target K V ρ :=
  ⟨freshNode r0, zeroHash, [], t.withAnc, t.forking, none, [], false⟩

/-- The entries of the first state as writes; `add_raw_state_entry` looks for the entry in the database only, so the
last value given for a key counts: 594-599. -/
def initDelta (st : List (K × V)) : Delta K V := (st.map fun e => (e.1, some e.2)).reverse

/-- The handler of `Initialize` on a new storage: 584-627. -/
def initFresh (W : World K V ρ) (t : Target K V ρ) (h : Header) (st : List (K × V)) (anc : Anc) : Target K V ρ × Reply K V :=
  match Header.hash W.H h with
  | .error _ => (t, .closed)
  | .ok hash =>
    let db := over (initDelta st) t.node.db
    (⟨⟨db, [], t.node.ring, h, if t.withAnc then anc ++ t.node.anc else t.node.anc, t.node.headers,
        (hash, W.root db) :: t.node.roots⟩, hash, (st.map Prod.fst).foldl insertKey t.keys, t.withAnc, t.forking, some hash,
        [], true⟩, .root (W.root db))

/-- `process_message`: 564-728.  `sess` says whether the session was initialised. -/
def handle (W : World K V ρ) (r0 : ρ) (t : Target K V ρ) (sess : Bool) : Msg K V → Target K V ρ × Bool × Reply K V
  | .initialize h st anc =>
    if sess then (t, sess, .closed)
    else
      let r := initFresh W (if t.inited then reset r0 t else t) h st anc
      (r.1, true, r.2)
  | .importBlock b => let r := importMsg W t b; (r.1, sess, r.2)
  | .getState h => (t, sess, .state (buildState t h))
  | .other => (t, sess, .closed)

/-- `handle_fuzzer_session` after the handshake: the replies up to the first that closes the session. -/
def session (W : World K V ρ) (r0 : ρ) : Target K V ρ → Bool → List (Msg K V) → Target K V ρ × List (Reply K V)
  | t, _, [] => (t, [])
  | t, sess, m :: ms =>
    match handle W r0 t sess m with
    | (t, _, .closed) => (t, [.closed])
    | (t, sess, r) =>
      let s := session W r0 t sess ms
      (s.1, r :: s.2)

/-- The start of a session: a target that has served one before is reset, and the features are those of the
handshake: 444-452 and 535-541. -/
def begin (r0 : ρ) (first : Bool) (withAnc forking : Bool) (t : Target K V ρ) : Target K V ρ :=
  let t := if first then t else reset r0 t
  { t with withAnc := withAnc, forking := forking }

/-- A new target. -/
def newTarget (r0 : ρ) : Target K V ρ := ⟨freshNode r0, zeroHash, [], false, false, none, [], false⟩

end Fastroll.Fork
