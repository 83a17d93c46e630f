import Verif.Wire.Model

/-!
# Model of the block importer

Transcribes
* `/repo/node/src/roles/importer.rs` lines 95-200 and 270-578 (the importer, the header checks, the order of the
  phases, the two commit modes),
* `/repo/node/src/roles/author.rs` lines 115-186, 228-350 and 385-465 (authoring a block),
* `/repo/node/src/scheduler/chain_extension.rs` lines 45-75 (what is stored for an authored block),
* `/repo/block/src/header_db.rs` lines 86-140, `/repo/block/src/post_state_root_db.rs` (what is stored),
* `/repo/block/src/types/block.rs` lines 37-39 (`is_genesis`),
* `/repo/state/src/types/timeslot.rs` lines 80-92 (`is_in_future`),
* `/repo/state/src/manager.rs` lines 655-657 and 772-890 (commit, stage, roll back, root).

Simplifications.
* The state is a map from keys to values; the cache is the list of its uncommitted writes, the newest first
  (C30 proves that the real cache behaves like that).  The databases are maps and do not fail.
* What the phases of the state transition compute is a parameter (`World`): a phase reads the committed state,
  the state with the uncommitted writes, the ring cache and the fields of the block it is given, and returns its
  writes, the new ring cache and a result.  It writes also when it fails.  A phase is given only the parts of the
  block the code passes to it.
* The hash, the state root and the signature scheme are parameters.
* The ancestor set is the list of the insertions into it, the newest first (C35 models the set).
* Errors are kept apart by the check that failed, without their payload.
-/
namespace Fastroll.Chain
open Fastroll.Wire

/-- A state: the entries of the state database. -/
abbrev St (K V : Type) := K → Option V
/-- Uncommitted writes, the newest first; `none` removes the entry. -/
abbrev Delta (K V : Type) := List (K × Option V)

/-- The state seen through uncommitted writes. -/
def over {K V : Type} [DecidableEq K] : Delta K V → St K V → St K V
  | [], s => s
  | (k, v) :: d, s => fun x => if x = k then v else over d s x

/-- `SlotSealer`: `state/src/types/safrole.rs` 112-115. -/
inductive Sealer where
  | ticket (t : Ticket)
  | key (k : Bytes)
deriving DecidableEq

/-- `BlockExecutionHeaderMarkers`: `executor.rs` 64-68. -/
structure Markers where
  epoch : Option EpochMarker
  winners : Option (List Ticket)
  offenders : List Bytes
deriving DecidableEq

/-- The parts of the block read by `run_state_transition_pre_header_commitment`, `executor.rs` 79-83. -/
structure PreIn where
  slot : Nat
  priorRoot : Bytes
  disputes : DisputesXt
  tickets : List TicketXt

/-- The parts of the block read by `run_state_transition_post_header_commitment`, `executor.rs` 190-199 and 233. -/
structure PostIn where
  xt : Extrinsics
  parent : Bytes
  author : Nat
  vrf : Bytes

/-- `AccountStateChanges`: `transition/src/state/services.rs` 35-62. -/
structure Changes (K : Type) where
  added : List K
  removed : List K
deriving DecidableEq

/-- Entries of the ancestor set: slot and header hash. -/
abbrev Anc := List (Nat × Bytes)

/-- What the model is parametric in: hashing, the state root, the signature scheme (`outHash` is
`output_hash`, `verify` is `VrfVerifier::verify_vrf`, `sign` is `VrfProver::sign_vrf`), and the state
transition: the three phases, the genesis transition, and the three components read back for the header. -/
structure World (K V ρ : Type) where
  P : Params
  H : Bytes → Bytes
  root : St K V → Bytes
  outHash : Bytes → Option Bytes
  verify : (input msg sig key : Bytes) → Bool
  sign : (sk input msg : Bytes) → Bytes
  pre : PreIn → St K V → St K V → ρ → Delta K V × ρ × Option Markers
  sealer : St K V → Nat → Sealer
  authorKey : St K V → Nat → Option Bytes
  eta3 : St K V → Bytes
  post : PostIn → Option Anc → St K V → St K V → ρ → Delta K V × ρ × Option (Bytes × Changes K)
  fin : Bytes → Bytes → St K V → St K V → Delta K V × Option Unit
  genesis : Block → St K V → St K V → ρ → Delta K V × ρ × Option Unit

/-- `BlockImportError`: 40-93. -/
inductive ImpErr where
  | codec | timeslot | future | parent | rootMissing | rootWrong | xtHash | author | sealOutput | fallbackKey
  | sealSig | vrfSig | epochMark | winnersMark | offendersMark | exec
deriving DecidableEq

/-- `NodeStorage` with the ring cache: `storage/src/node_storage.rs` 35-40. -/
structure Node (K V ρ : Type) where
  db : St K V
  dirty : Delta K V
  ring : ρ
  best : Header
  anc : Anc
  headers : List (Bytes × Header)
  roots : List (Bytes × Bytes)

variable {K V ρ : Type} [DecidableEq K]

/-- The state seen by the transition functions. -/
def Node.view (n : Node K V ρ) : St K V := over n.dirty n.db

/-- `rollback_dirty_cache`: `manager.rs` 888-890. -/
def Node.rollback (n : Node K V ρ) : Node K V ρ := { n with dirty := [] }

/-- `commit_dirty_cache`: `manager.rs` 841-869. -/
def Node.commit (n : Node K V ρ) : Node K V ρ := { n with db := n.view, dirty := [] }

/-- `insert_header`: `header_db.rs` 124-136. -/
def Node.insertHeader (n : Node K V ρ) (hash : Bytes) (h : Header) : Node K V ρ :=
  { n with anc := (h.slot, hash) :: n.anc, headers := (hash, h) :: n.headers }

/-- `set_post_state_root`. -/
def Node.setRoot (n : Node K V ρ) (hash root : Bytes) : Node K V ρ := { n with roots := (hash, root) :: n.roots }

/-- The key-value lookup of `PostStateRootDB` and `BlockHeaderDB`. -/
def find {α : Type} : List (Bytes × α) → Bytes → Option α
  | [], _ => none
  | (k, a) :: l, x => if x = k then some a else find l x

/-- `BlockHeaderHash::default()`. -/
def zeroHash : Bytes := List.replicate 32 0

/-- `Block::is_genesis`: `block.rs` 37-39. -/
def isGenesis (b : Block) : Bool := decide (b.header.parent = zeroHash)

/-- `COMMON_ERA_TIMESTAMP` and `SLOT_DURATION`. -/
def era : Nat := 1735732800
def slotDuration : Nat := 6

/-- `timeslot_beginning_to_unix_timestamp`: `timeslot.rs` 85-92. -/
def slotBeginning (slot : Nat) : Nat := if slot = 0 then era else era + (slot - 1) * slotDuration

/-- `is_in_future`: `timeslot.rs` 80-83, at the time `now` (seconds). -/
def inFuture (slot now : Nat) : Bool := decide (now < slotBeginning slot)

/-- `b"jam_ticket_seal"`, `b"jam_fallback_seal"`, `b"jam_entropy"`: `common/src/constants/mod.rs` 125-137. -/
def X_T : Bytes := [106, 97, 109, 95, 116, 105, 99, 107, 101, 116, 95, 115, 101, 97, 108]
def X_F : Bytes := [106, 97, 109, 95, 102, 97, 108, 108, 98, 97, 99, 107, 95, 115, 101, 97, 108]
def X_E : Bytes := [106, 97, 109, 95, 101, 110, 116, 114, 111, 112, 121]

/-! ## Checks -/

/-- `validate_timeslot_index`: 368-388.  `clock` is the time read, `none` in the build for fuzzing. -/
def checkSlot (clock : Option Nat) (best : Header) (b : Block) : Except ImpErr Unit :=
  if b.header.slot ≤ best.slot then .error .timeslot
  else match clock with
    | none => .ok ()
    | some now => if inFuture b.header.slot now then .error .future else .ok ()

/-- `validate_parent_hash`: 353-366. -/
def checkParent (W : World K V ρ) (best : Header) (b : Block) : Except ImpErr Unit :=
  match Header.hash W.H best with
  | .error _ => .error .codec
  | .ok h => if b.header.parent = h then .ok () else .error .parent

/-- `validate_prior_state_root`: 390-408. -/
def checkRoot (roots : List (Bytes × Bytes)) (b : Block) : Except ImpErr Unit :=
  match find roots b.header.parent with
  | none => .error .rootMissing
  | some r => if r = b.header.stateRoot then .ok () else .error .rootWrong

/-- `validate_xt_hash`: 410-418. -/
def checkXt (W : World K V ρ) (b : Block) : Except ImpErr Unit :=
  match Extrinsics.hash W.P W.H b.xt with
  | .error _ => .error .codec
  | .ok h => if b.header.xtHash = h then .ok () else .error .xtHash

/-- The `?` between two checks. -/
def also (a b : Except ImpErr Unit) : Except ImpErr Unit :=
  match a with
  | .error e => .error e
  | .ok _ => b

/-- `validate_block_header_prior_stf`: 271-282. -/
def checkPrior (W : World K V ρ) (clock : Option Nat) (n : Node K V ρ) (b : Block) : Except ImpErr Unit :=
  also (checkSlot clock n.best b) (also (checkParent W n.best b) (also (checkRoot n.roots b) (checkXt W b)))

/-- The two arms of the match of `verify_block_seal` with their input to the signature: 427-453;
`validate_author_block_seal`: `author.rs` 386-394. -/
def sealInput (W : World K V ρ) (h : Header) (s : Sealer) (key eta3 : Bytes) : Except ImpErr Bytes :=
  match s with
  | .ticket t =>
    if W.outHash h.sealSig = some t.id then .ok (X_T ++ eta3 ++ [UInt8.ofNat t.attempt]) else .error .sealOutput
  | .key k => if k = key then .ok (X_F ++ eta3) else .error .fallbackKey

/-- `verify_block_seal`: 420-463. -/
def checkSeal (W : World K V ρ) (h : Header) (s : Sealer) (key eta3 : Bytes) : Except ImpErr Unit :=
  match sealInput W h s key eta3 with
  | .error e => .error e
  | .ok input =>
    match Header.encData h with
    | .error _ => .error .codec
    | .ok aux => if W.verify input aux h.sealSig key then .ok () else .error .sealSig

/-- `verify_vrf_output`: 466-485. -/
def checkVrf (W : World K V ρ) (h : Header) (key : Bytes) : Except ImpErr Unit :=
  match W.outHash h.sealSig with
  | none => .error .vrfSig
  | some o => if W.verify (X_E ++ o) [] h.vrf key then .ok () else .error .vrfSig

/-- `validate_header_markers`: 488-511. -/
def checkMarkers (h : Header) (m : Markers) : Except ImpErr Unit :=
  if h.epochMarker ≠ m.epoch then .error .epochMark
  else if h.winners ≠ m.winners then .error .winnersMark
  else if h.offenders ≠ m.offenders then .error .offendersMark
  else .ok ()

/-- `validate_block_header_post_safrole` with `get_post_states_for_header_validation`: 288-351.  Both signature
checks run; the error of the seal is reported first. -/
def checkPost (W : World K V ρ) (view : St K V) (h : Header) (m : Markers) : Except ImpErr Unit :=
  match W.authorKey view h.author with
  | none => .error .author
  | some key =>
    also (checkSeal W h (W.sealer view h.slot) key (W.eta3 view)) (also (checkVrf W h key) (checkMarkers h m))

/-! ## The transition -/

/-- What the phases read of a block. -/
def preIn (b : Block) : PreIn := ⟨b.header.slot, b.header.stateRoot, b.xt.disputes, b.xt.tickets⟩
def postIn (b : Block) : PostIn := ⟨b.xt, b.header.parent, b.header.author, b.header.vrf⟩

/-- Phase 1: `run_state_transition_pre_header_commitment`. -/
def phase1 (W : World K V ρ) (n : Node K V ρ) (b : Block) : Node K V ρ × Option Markers :=
  let r := W.pre (preIn b) n.db n.view n.ring
  ({ n with dirty := r.1 ++ n.dirty, ring := r.2.1 }, r.2.2)

/-- Phase 2: `run_state_transition_post_header_commitment`. -/
def phase2 (W : World K V ρ) (withAnc : Bool) (n : Node K V ρ) (b : Block) : Node K V ρ × Option (Bytes × Changes K) :=
  let r := W.post (postIn b) (if withAnc then some n.anc else none) n.db n.view n.ring
  ({ n with dirty := r.1 ++ n.dirty, ring := r.2.1 }, r.2.2)

/-- Phase 3: `append_beefy_belt_and_block_history`. -/
def phase3 (W : World K V ρ) (n : Node K V ρ) (hash out : Bytes) : Node K V ρ × Option Unit :=
  let r := W.fin hash out n.db n.view
  ({ n with dirty := r.1 ++ n.dirty }, r.2)

/-- `run_genesis_state_transition`. -/
def phaseG (W : World K V ρ) (n : Node K V ρ) (b : Block) : Node K V ρ × Option Unit :=
  let r := W.genesis b n.db n.view n.ring
  ({ n with dirty := r.1 ++ n.dirty, ring := r.2.1 }, r.2.2)

/-- Phase 3 with the hash of the header: 524-531 and 548-555. -/
def finish (W : World K V ρ) (n : Node K V ρ) (b : Block) (out : Bytes) (c : Changes K) :
    Node K V ρ × Except ImpErr (Changes K) :=
  match Header.hash W.H b.header with
  | .error _ => (n, .error .codec)
  | .ok hash =>
    match phase3 W n hash out with
    | (n, none) => (n, .error .exec)
    | (n, some _) => (n, .ok c)

/-- Phases 2 and 3: 541-556. -/
def execPost (W : World K V ρ) (withAnc : Bool) (n : Node K V ρ) (b : Block) : Node K V ρ × Except ImpErr (Changes K) :=
  match phase2 W withAnc n b with
  | (n, none) => (n, .error .exec)
  | (n, some (out, c)) => finish W n b out c

/-- The accumulation root of the genesis transition: `AccumulateRoot::default()`, `executor.rs` 393. -/
def genesisOut : Bytes := List.replicate 32 0

/-- The transition up to the commitment: 521-557. -/
def exec (W : World K V ρ) (withAnc : Bool) (n : Node K V ρ) (b : Block) : Node K V ρ × Except ImpErr (Changes K) :=
  if isGenesis b then
    match phaseG W n b with
    | (n, none) => (n, .error .exec)
    | (n, some _) => finish W n b genesisOut ⟨[], []⟩
  else
    match phase1 W n b with
    | (n, none) => (n, .error .exec)
    | (n, some m) =>
      match checkPost W n.view b.header m with
      | .error e => (n, .error e)
      | .ok _ => execPost W withAnc n b

/-- `BlockCommitMode`: 95-101. -/
inductive Mode where
  | immediate | stageOnly
deriving DecidableEq

/-- `BlockImportOutput`: 103-110. -/
structure Out (K V : Type) where
  root : Bytes
  changes : Changes K
  artifact : Option (Delta K V)

/-- The commitment: 559-577.  A staged block with no writes has no artifact. -/
def conclude (W : World K V ρ) (mode : Mode) (n : Node K V ρ) (c : Changes K) : Node K V ρ × Out K V :=
  match mode with
  | .immediate => (n.commit, ⟨W.root n.commit.db, c, none⟩)
  | .stageOnly =>
    match n.dirty with
    | [] => (n.rollback, ⟨W.root n.db, c, none⟩)
    | e :: d => (n.rollback, ⟨W.root n.view, c, some (e :: d)⟩)

/-- `run_state_transition`: 514-578. -/
def runStf (W : World K V ρ) (withAnc : Bool) (mode : Mode) (n : Node K V ρ) (b : Block) :
    Node K V ρ × Except ImpErr (Out K V) :=
  match exec W withAnc n b with
  | (n, .error e) => (n, .error e)
  | (n, .ok c) => ((conclude W mode n c).1, .ok (conclude W mode n c).2)

/-- `set_best_header` in the immediate mode: 196-198. -/
def setBest (mode : Mode) (n : Node K V ρ) (h : Header) : Node K V ρ :=
  match mode with
  | .immediate => { n with best := h }
  | .stageOnly => n

/-- `validate_block`: 173-200. -/
def validate (W : World K V ρ) (clock : Option Nat) (withAnc : Bool) (mode : Mode) (n : Node K V ρ) (b : Block) :
    Node K V ρ × Except ImpErr (Out K V) :=
  if isGenesis b then runStf W withAnc mode n b
  else
    match checkPrior W clock n b with
    | .error e => (n, .error e)
    | .ok _ =>
      match runStf W withAnc mode n b with
      | (n, .error e) => (n, .error e)
      | (n, .ok o) => (setBest mode n b.header, .ok o)

/-- `insert_header` in the immediate mode: 164-168. -/
def insertIf (mode : Mode) (n : Node K V ρ) (hash : Bytes) (h : Header) : Node K V ρ :=
  match mode with
  | .immediate => n.insertHeader hash h
  | .stageOnly => n

/-- `import_block`: 144-171. -/
def importBlock (W : World K V ρ) (clock : Option Nat) (withAnc : Bool) (mode : Mode) (n : Node K V ρ) (b : Block) :
    Node K V ρ × Except ImpErr (Out K V) :=
  match Header.hash W.H b.header with
  | .error _ => (n, .error .codec)
  | .ok hash =>
    match validate W clock withAnc mode n b with
    | (n, .error e) => (n, .error e)
    | (n, .ok o) => (insertIf mode n hash b.header, .ok o)

/-- One round of the loop of `run_block_importer`: 118-140.  The result says whether the block was accepted. -/
def importStep (W : World K V ρ) (clock : Option Nat) (n : Node K V ρ) (b : Block) : Node K V ρ × Except ImpErr Bytes :=
  match Header.hash W.H b.header with
  | .error _ => (n, .error .codec)
  | .ok hash =>
    match importBlock W clock false .immediate n b with
    | (n, .error e) => (n.rollback, .error e)
    | (n, .ok o) => (n.setRoot hash o.root, .ok o.root)

/-- `run_block_importer`: every block with the time at which it is handled.  Returns what was answered. -/
def importAll (W : World K V ρ) : Node K V ρ → List (Option Nat × Block) → Node K V ρ × List (Except ImpErr Bytes)
  | n, [] => (n, [])
  | n, (t, b) :: l =>
    let r := importStep W t n b
    let s := importAll W r.1 l
    (s.1, r.2 :: s.2)

/-! ## Authoring -/

/-- `sign_entropy_source_vrf_signature`: `author.rs` 440-465. -/
def signEntropy (W : World K V ρ) (sk : Bytes) (s : Sealer) (eta3 : Bytes) : Option Bytes :=
  match s with
  | .ticket t => some (W.sign sk (X_E ++ t.id) [])
  | .key _ =>
    match W.outHash (W.sign sk (X_F ++ eta3) []) with
    | none => none
    | some o => some (W.sign sk (X_E ++ o) [])

/-- `sign_block_seal` and `sign_fallback_block_seal`: 396-428. -/
def signSeal (W : World K V ρ) (sk : Bytes) (s : Sealer) (eta3 : Bytes) (h : Header) : Option Bytes :=
  match Header.encData h with
  | .error _ => none
  | .ok aux =>
    match s with
    | .ticket t =>
      let sig := W.sign sk (X_T ++ eta3 ++ [UInt8.ofNat t.attempt]) aux
      if W.outHash sig = some t.id then some sig else none
    | .key _ => some (W.sign sk (X_F ++ eta3) aux)

/-- `collect_extrinsics`: 228-231. -/
def noXt : Extrinsics := ⟨[], [], [], [], ⟨[], [], []⟩⟩

/-- `set_extrinsics` and `prelude` on a new block: 233-263.  The remaining fields are the default ones. -/
def prelude (root parent xtHash : Bytes) (author slot : Nat) : Header :=
  { parent := parent, stateRoot := root, xtHash := xtHash, slot := slot, epochMarker := none, winners := none,
    author := author, vrf := List.replicate 96 0, offenders := [], sealSig := List.replicate 96 0 }

/-- `epilogue`, the header fields: 296-322. -/
def epilogue (h : Header) (vrf : Bytes) (m : Markers) : Header :=
  { h with vrf := vrf, offenders := m.offenders, epochMarker := m.epoch, winners := m.winners }

/-- `set_block_seal`: `block.rs` 323-325. -/
def withSeal (h : Header) (s : Bytes) : Header := { h with sealSig := s }

/-- `epilogue` and `seal_block_header` after phase 1: 296-346.  `key` is not looked at. -/
def sealHeader (W : World K V ρ) (sk : Bytes) (view : St K V) (h : Header) (m : Markers) : Option Header :=
  match signEntropy W sk (W.sealer view h.slot) (W.eta3 view) with
  | none => none
  | some vrf =>
    match signSeal W sk (W.sealer view h.slot) (W.eta3 view) (epilogue h vrf m) with
    | none => none
    | some s => some (withSeal (epilogue h vrf m) s)

/-- `author_block_commit_header`: 115-145, then `set_best_header` and `commit_header` of
`chain_extension.rs` 52-60.  `slot` is the slot of the clock. -/
def authorHeader (W : World K V ρ) (sk : Bytes) (author slot : Nat) (n : Node K V ρ) : Node K V ρ × Option Header :=
  match Extrinsics.hash W.P W.H noXt, Header.hash W.H n.best with
  | .ok xh, .ok parent =>
    let h := prelude (W.root n.db) parent xh author slot
    match phase1 W n ⟨h, noXt⟩ with
    | (n, none) => (n, none)
    | (n, some m) =>
      match sealHeader W sk n.view h m with
      | none => (n, none)
      | some h =>
        match Header.hash W.H h with
        | .error _ => (n, none)
        | .ok hash => ({ n with best := h, headers := (hash, h) :: n.headers }, some h)
  | _, _ => (n, none)

/-- `author_block_commit_state`: 148-186. -/
def authorState (W : World K V ρ) (n : Node K V ρ) (h : Header) : Node K V ρ × Option Bytes :=
  match execPost W false n ⟨h, noXt⟩, Header.hash W.H h with
  | (n, .ok _), .ok hash => (n.commit.setRoot hash (W.root n.commit.db), some (W.root n.commit.db))
  | (n, _), _ => (n, none)

/-- `extend_chain` for an author: `chain_extension.rs` 43-80. -/
def authorBlock (W : World K V ρ) (sk : Bytes) (author slot : Nat) (n : Node K V ρ) :
    Node K V ρ × Option (Block × Bytes) :=
  match authorHeader W sk author slot n with
  | (n, none) => (n, none)
  | (n, some h) =>
    match authorState W n h with
    | (n, none) => (n, none)
    | (n, some r) => (n, some (⟨h, noXt⟩, r))

end Fastroll.Chain
